import Verif.Proofs.ChainOpen

/-! # Histories of whole decays -/

namespace CGMF.HF

open CGMF.Law CGMF.MC CGMF.Grid CGMF.Props CGMF.Branching MeasureTheory

variable {par : Par ℝ} {m : MCPoint ℝ}

/-! ## Locality of the continuum loop -/

theorem local_stop {α : Type} : Local (Rnd.stop : Rnd ℝ α) := by
  intro s a s' h
  cases h

theorem local_more {α : Type} : Local (fun _ => .more : Rnd ℝ α) := by
  intro s a s' h
  cases h

theorem local_bypass (levels : List (Level ℝ)) (p j : Int) : Local (bypass levels p j) := by
  unfold bypass
  refine local_bind (local_pick _ _ _ _ _ _) fun b => ?_
  cases b with
  | some i => exact local_pure _
  | none => exact local_get' _

theorem local_store (ic : Bool) (a b : MCPoint ℝ) (st : St ℝ) : Local (store par ic a b st) := by
  unfold store
  split
  · exact local_undef
  · refine local_bind (local_get' _) fun _ => ?_
    dsimp only
    split
    · exact local_stop
    · exact local_pure _

theorem local_compound (maxJ : Nat) (w : ℝ) (n0 n1 : Nuc ℝ) (m0 m1 : Mesh ℝ) (ph : Phys ℝ) (p j a b : Int) :
    Local (compoundDecay maxJ w n0 n1 m0 m1 ph p j a b) := by
  unfold compoundDecay
  extract_lets
  split
  · exact local_bind (local_bypass _ _ _) fun _ => local_pure _
  · exact local_pure _

theorem local_daughter (n0 : Nuc ℝ) (m0 : Mesh ℝ) (e : ℝ) : Local (daughter par n0 m0 e) := by
  unfold daughter
  split
  · exact local_bind (local_get' _) fun _ => local_bind (Isotropy.local_lift _) fun _ => local_pure _
  · exact local_pure _

theorem local_next (c : Nat) (n0 n1 : Nuc ℝ) (m0 m1 : Mesh ℝ) (pops : Pops ℝ) (p j : Int) :
    Local (findNext c n0 n1 m0 m1 pops p j) := by
  unfold findNext
  refine local_bind Isotropy.local_draw fun r => ?_
  split
  · exact local_get' _
  · exact local_get' _
  · exact local_bind (local_forced _ _ _) fun _ => local_get' _

theorem local_perturb (n : Nuc ℝ) (mm : Mesh ℝ) (x : MCPoint ℝ) : Local (perturb n mm x) := by
  unfold perturb
  split
  · exact local_pure _
  · exact local_bind (local_get' _) fun _ => local_bind Isotropy.local_draw fun _ => local_pure _

theorem local_lowCut (n0 : Nuc ℝ) (a x : MCPoint ℝ) : Local (lowCut par n0 a x) := by
  unfold lowCut
  split
  · refine local_bind (local_get' _) fun _ => ?_
    split
    · exact local_bind (local_forced _ _ _) fun _ => local_get' _
    · exact local_pure _
  · exact local_pure _

theorem local_contStep (st : St ℝ) (m : MCPoint ℝ) : Local (contStep par st m) := by
  unfold contStep
  refine local_bind (local_get' _) fun _ => local_bind (Isotropy.local_lift _) fun _ => local_bind (local_daughter _ _ _) fun _ => ?_
  split
  · exact local_undef
  · exact local_bind (local_compound _ _ _ _ _ _ _ _ _ _ _) fun _ => local_bind (local_next _ _ _ _ _ _ _ _) fun _ =>
      local_bind (local_perturb _ _ _) fun _ => local_bind (local_lowCut _ _ _) fun _ => local_bind (local_store _ _ _ _) fun _ =>
        local_pure _

theorem local_contLoop : ∀ (fuel : Nat) (st : St ℝ) (m : MCPoint ℝ), Local (contLoop par fuel st m)
  | 0, _, _ => local_more
  | fuel + 1, st, m => by
    rw [contLoop]
    refine local_bind (local_contStep _ _) fun r => ?_
    split
    · exact local_pure _
    · exact local_contLoop fuel _ _

/-! ## What the two parts of a decay write -/

/-- The continuum loop ends on a level and adds entries made at continuum points; none is a conversion electron. -/
theorem loop_entries {fuel : Nat} : ∀ {st : St ℝ} {m : MCPoint ℝ} {s s' : List ℝ} {st' : St ℝ} {x : MCPoint ℝ},
    contLoop par fuel st m s = .ok ((st', x), s') → m.disc = false → x.disc = true ∧ st'.ts = st.ts ∧
      ∃ ys, st'.hs = st.hs ++ ys ∧ ∀ y ∈ ys, y.mp.disc = false ∧ (y.id = .gamma ∨ y.id = .neutron) := by
  induction fuel with
  | zero => intro st m s s' st' x h; cases h
  | succ fuel ih =>
    intro st m s s' st' x h hd
    rw [contLoop] at h
    obtain ⟨⟨st1, x1⟩, s1, h1, h2⟩ := Rnd.bind_ok.mp h
    obtain ⟨n0, m0, d, pops, y1, y2, jm, t1, t2, t3, t4, t5, g1, g2, g3, g4, g5, g6, g7, g8, g9, g10, g11⟩ := contStep_ok h1
    have h3 := contStep_hist g1 h1
    have hts : st1.ts = st.ts := by
      obtain ⟨-, -, n0'', -, rfl⟩ := store_ok g11
      rfl
    have hem : (emission m n0 x1).mp.disc = false ∧ ((emission m n0 x1).id = .gamma ∨ (emission m n0 x1).id = .neutron) := by
      unfold emission
      split
      · exact ⟨hd, .inl rfl⟩
      · exact ⟨hd, .inr rfl⟩
    by_cases hx : x1.disc = true
    · rw [if_pos hx] at h2
      obtain ⟨h4, -⟩ := Rnd.pure_ok.mp h2
      cases h4
      exact ⟨hx, hts, _, h3, by simpa using hem⟩
    · rw [if_neg hx] at h2
      obtain ⟨r1, r2, ys, r4, r5⟩ := ih h2 (by simpa using hx)
      refine ⟨r1, by rw [r2, hts], emission m n0 x1 :: ys, by rw [r4, h3]; simp, ?_⟩
      intro y hy
      rcases List.mem_cons.mp hy with rfl | hy
      · exact hem
      · exact r5 y hy

/-- The cascade adds entries made at levels of its nucleus, the first one at the level it starts from. -/
theorem cascade_entries {c i f : Nat} {st st' : St ℝ} {n : Nuc ℝ} (hn : par.chain[c]? = some n) {s s' : List ℝ}
    (h : cascade par c i st s = .ok ((f, st'), s')) : ∃ zs, st'.hs = st.hs ++ zs ∧ (zs = [] → f = i) ∧
      (∀ z, zs.head? = some z → z.mp.k = i) ∧ (∀ z ∈ zs, z.mp.disc = true ∧ z.mp.n = c ∧ z.id ≠ .neutron) ∧
      (st.hs.length < par.cap → st'.hs.length < par.cap) := by
  unfold cascade at h
  rw [hn] at h
  obtain ⟨t1, s1, h1, -⟩ := cascadeLoop_ind (I := fun i' _ st1 _ => ∃ zs, st1.hs = st.hs ++ zs ∧ (zs = [] → i' = i) ∧
      (∀ z, zs.head? = some z → z.mp.k = i) ∧ (∀ z ∈ zs, z.mp.disc = true ∧ z.mp.n = c ∧ z.id ≠ .neutron) ∧
      (st.hs.length < par.cap → st1.hs.length < par.cap))
    (by
      rintro i t st s l t' r s1 s2 h _ _ _ _ _ _
      exact h)
    (by
      rintro i1 t st1 s l t' r x s1 s2 b l1 ts st2 ⟨zs, e, e1, e2, e3, e4⟩ _ _ _ _ _ _ _ _ hstore
      obtain ⟨-, hr, n0, -, rfl⟩ := store_ok hstore
      refine ⟨zs ++ [⟨if decide (b.gratio < x) then .ic else .gamma, l.energy - l1.energy, levelPoint c i1 l⟩], ?_, ?_, ?_, ?_, ?_⟩
      · simp only [e, List.append_assoc, if_pos (show (levelPoint c i1 l).n = (levelPoint c b.fstate l1).n from rfl)]
        rfl
      · intro h0; simp at h0
      · intro z hz
        cases zs with
        | nil =>
          simp only [List.nil_append, List.head?_cons, Option.some.injEq] at hz
          subst hz
          exact e1 rfl
        | cons z0 zs =>
          exact e2 z (by simpa using hz)
      · intro z hz
        rcases List.mem_append.mp hz with hz | hz
        · exact e3 z hz
        · rw [List.mem_singleton] at hz
          subst hz
          refine ⟨rfl, rfl, ?_⟩
          dsimp only
          split <;> simp
      · intro _
        simp only [List.length_append, List.length_cons, List.length_nil]
        simpa using hr)
    _ _ _ _ _ _ _ _ ⟨[], by simp, fun _ => rfl, by simp, by simp, fun h => h⟩ h
  exact h1

/-- The history stays below the limit. -/
theorem loop_room {fuel : Nat} : ∀ {st : St ℝ} {m : MCPoint ℝ} {s s' : List ℝ} {st' : St ℝ} {x : MCPoint ℝ},
    contLoop par fuel st m s = .ok ((st', x), s') → st'.hs.length < par.cap := by
  induction fuel with
  | zero => intro st m s s' st' x h; cases h
  | succ fuel ih =>
    intro st m s s' st' x h
    rw [contLoop] at h
    obtain ⟨⟨st1, x1⟩, s1, h1, h2⟩ := Rnd.bind_ok.mp h
    by_cases hx : x1.disc = true
    · rw [if_pos hx] at h2
      obtain ⟨h4, -⟩ := Rnd.pure_ok.mp h2
      cases h4
      obtain ⟨n0, m0, d, pops, y1, y2, jm, t1, t2, t3, t4, t5, g1, g2, g3, g4, g5, g6, g7, g8, g9, g10, g11⟩ := contStep_ok h1
      obtain ⟨-, hr, n0'', -, rfl⟩ := store_ok g11
      simpa using hr
    · rw [if_neg hx] at h2
      exact ih h2

/-! ## Kinds of particles -/

instance : Finite Pid := Finite.of_injective (fun p : Pid => match p with | .gamma => (0 : Fin 3) | .neutron => 1 | .ic => 2)
  (fun a b h => by cases a <;> cases b <;> first | rfl | (exact absurd h (by decide)))


theorem matches_kinds : ∀ (l : List Pid) (ys : List (Hist ℝ)), Matches (l.map fun p => (p, Set.univ)) ys ↔ ys.map (·.id) = l := by
  intro l
  induction l with
  | nil =>
    intro ys
    cases ys with
    | nil => exact ⟨fun _ => rfl, fun _ => .nil⟩
    | cons y ys => exact ⟨(fun h => by cases h), (fun h => by cases h)⟩
  | cons p l ih =>
    intro ys
    cases ys with
    | nil => exact ⟨(fun h => by cases h), (fun h => by cases h)⟩
    | cons y ys =>
      simp only [List.map_cons, Matches, List.forall₂_cons, Set.mem_univ, and_true, List.cons.injEq]
      exact and_congr Iff.rfl (ih ys)

/-! ## Independence of the two parts -/

theorem stop_indep {f : Rnd ℝ Unit} (hf : Local f) (hm : ∀ a, MeasurableSet (At f () a)) {F : Set (ℕ → ℝ)} (hF : MeasurableSet F) :
    stream {ω | ∃ a, f (pre ω a) = .ok ((), []) ∧ shift a ω ∈ F} = probIn f Set.univ * stream F := by
  have e1 : {ω | ∃ a, f (pre ω a) = .ok ((), []) ∧ shift a ω ∈ F} = ⋃ a, (At f () a ∩ shift a ⁻¹' F) := by
    ext ω
    simp [At]
  have e2 : {ω | ∃ n a, f (pre ω n) = .ok (a, []) ∧ a ∈ Set.univ} = ⋃ a, At f () a := by
    ext ω
    simp only [Set.mem_univ, and_true, Set.mem_ofPred_eq, Set.mem_iUnion, At]
    exact ⟨fun ⟨k, _, h⟩ => ⟨k, h⟩, fun ⟨k, h⟩ => ⟨k, (), h⟩⟩
  unfold probIn
  rw [e1, e2, measure_iUnion, measure_iUnion, ← ENNReal.tsum_mul_right]
  · exact tsum_congr fun a => indep F hF a _ (hm a) (at_dep f () a)
  · intro a b h
    rw [Function.onFun, Set.disjoint_left]
    intro ω h1 h2
    exact h (at_unique hf h1 h2).2
  · exact hm
  · intro a b h
    rw [Function.onFun, Set.disjoint_left]
    rintro ω ⟨h1, -⟩ ⟨h2, -⟩
    exact h (at_unique hf h1 h2).2
  · exact fun a => (hm a).inter (measurable_shift a hF)

theorem walk_meas (hp : ∀ n, PhysMeasurable (par.phys n)) (Q : Nat → Nat → Prop) (cs : List (Pid × Set ℝ)) (hc : ∀ c ∈ cs, MeasurableSet c.2)
    (m : MCPoint ℝ) (a : Nat) : MeasurableSet (At (walk par Q cs m) () a) := by
  have h := (jm_after (par := par) hp Q cs hc a Set.univ MeasurableSet.univ)
  have h2 : Measurable fun ω : ℕ → ℝ => (m, ω) := measurable_const.prodMk measurable_id
  have h3 := h2 h
  convert h3 using 1
  ext ω
  simp only [Set.mem_preimage, Set.mem_ofPred_eq, outAt_eq, Set.mem_univ, true_and]
  exact ⟨fun h => ⟨(), h⟩, fun ⟨_, h⟩ => h⟩

/-- Law of the kinds of the particles. -/
theorem kinds_law (hp : ∀ n, PhysMeasurable (par.phys n)) (Q : Nat → Nat → Prop)
    (H : ∀ x, Reached par m x → x.disc = false → ∃ n0 n1 m0 m1, Pass par blank x n0 n1 m0 m1) (fuel : Nat) (st : St ℝ)
    (hd : m.disc = false) (L : Set (List Pid)) (hL : ∀ l ∈ L, l.length ≤ fuel ∧ st.hs.length + l.length < par.cap) :
    stream {ω | ∃ k st' x ys, contLoop par fuel st m (pre ω k) = .ok ((st', x), []) ∧ st'.hs = st.hs ++ ys ∧
      ys.map (·.id) ∈ L ∧ Q x.n x.k} = ∑' l : L, patternValue par Q (l.1.map fun p => (p, Set.univ)) m := by
  have : Countable Pid := Finite.to_countable
  have hc : ∀ l : List Pid, ∀ c ∈ l.map (fun p => (p, (Set.univ : Set ℝ))), MeasurableSet c.2 := by
    intro l c hc
    obtain ⟨p, -, rfl⟩ := List.mem_map.mp hc
    exact MeasurableSet.univ
  have hin : ∀ ω, Inside ω → ∀ k, ∀ r ∈ pre ω k, 0 < r ∧ r < 1 := by
    intro ω hω k r hr
    obtain ⟨i, -, rfl⟩ := List.mem_map.mp hr
    exact hω i
  have hlw : ∀ ω, Inside ω → ∀ l ∈ L, ∀ a, (∃ st' x, contLoop par fuel st m (pre ω a) = .ok ((st', x), []) ∧
      (∃ ys, st'.hs = st.hs ++ ys ∧ ys.map (·.id) = l) ∧ Q x.n x.k) ↔
      ω ∈ At (walk par Q (l.map fun p => (p, Set.univ)) m) () a := by
    intro ω hω l hl a
    have := loop_walk Q H (l.map fun p => (p, Set.univ)) fuel st m (pre ω a) [] (by simpa using (hL l hl).1)
      (by simpa using (hL l hl).2) hd .start (hin ω hω a)
    simp only [matches_kinds] at this
    exact this
  have e : stream {ω | ∃ k st' x ys, contLoop par fuel st m (pre ω k) = .ok ((st', x), []) ∧ st'.hs = st.hs ++ ys ∧
      ys.map (·.id) ∈ L ∧ Q x.n x.k} = stream (⋃ l : L, ⋃ a, At (walk par Q (l.1.map fun p => (p, Set.univ)) m) () a) := by
    apply stream_congr
    intro ω hω
    simp only [Set.mem_ofPred_eq, Set.mem_iUnion]
    constructor
    · rintro ⟨k, st', x, ys, h1, h2, h3, h4⟩
      exact ⟨⟨_, h3⟩, k, (hlw ω hω _ h3 k).mp ⟨st', x, h1, ⟨ys, h2, rfl⟩, h4⟩⟩
    · rintro ⟨⟨l, hl⟩, k, h⟩
      obtain ⟨st', x, h1, ⟨ys, h2, h3⟩, h4⟩ := (hlw ω hω l hl k).mpr h
      exact ⟨k, st', x, ys, h1, h2, by rw [h3]; exact hl, h4⟩
  rw [e, measure_iUnion₀]
  · refine tsum_congr fun l => ?_
    rw [← walk_value hp Q H _ (hc l.1) m (.inr .start)]
    unfold probIn
    congr 1
    ext ω
    simp only [Set.mem_univ, and_true, Set.mem_ofPred_eq, Set.mem_iUnion, At]
    exact ⟨fun ⟨k, h⟩ => ⟨k, (), h⟩, fun ⟨k, _, h⟩ => ⟨k, h⟩⟩
  · intro l l' hne
    refine measure_mono_null (t := {ω | ¬ Inside ω}) ?_ stream_inside
    rintro ω ⟨h1, h2⟩ hω
    obtain ⟨a, h1⟩ := Set.mem_iUnion.mp h1
    obtain ⟨a', h2⟩ := Set.mem_iUnion.mp h2
    obtain ⟨st1, x1, g1, ⟨ys1, g2, g3⟩, -⟩ := (hlw ω hω l.1 l.2 a).mpr h1
    obtain ⟨st2, x2, g4, ⟨ys2, g5, g6⟩, -⟩ := (hlw ω hω l'.1 l'.2 a').mpr h2
    obtain ⟨g7, -⟩ := at_unique (local_contLoop _ _ _) g1 g4
    cases g7
    rw [g2, List.append_cancel_left_eq] at g5
    subst g5
    exact hne (Subtype.ext (g3.symm.trans g6))
  · exact fun l => (MeasurableSet.iUnion fun a => walk_meas hp Q _ (hc l.1) m a).nullMeasurableSet

/-! ## The whole history -/

theorem split_unique {ys ys' zs zs' : List (Hist ℝ)} (h : ys ++ zs = ys' ++ zs') (h1 : ∀ y ∈ ys, y.mp.disc = false)
    (h2 : ∀ y ∈ ys', y.mp.disc = false) (h3 : ∀ z ∈ zs, z.mp.disc = true) (h4 : ∀ z ∈ zs', z.mp.disc = true) : ys = ys' ∧ zs = zs' := by
  have f1 : ∀ l : List (Hist ℝ), (∀ y ∈ l, y.mp.disc = false) → l.filter (fun y => y.mp.disc) = [] := fun l hl => by
    rw [List.filter_eq_nil_iff]
    intro y hy
    simp [hl y hy]
  have f2 : ∀ l : List (Hist ℝ), (∀ y ∈ l, y.mp.disc = true) → l.filter (fun y => y.mp.disc) = l := fun l hl => by
    rw [List.filter_eq_self]
    exact hl
  have e := congrArg (List.filter fun y => y.mp.disc) h
  rw [List.filter_append, List.filter_append, f1 _ h1, f1 _ h2, f2 _ h3, f2 _ h4] at e
  simp only [List.nil_append] at e
  subst e
  exact ⟨List.append_cancel_right h, rfl⟩

/-- At a level the cascade runs, also from the ground state where it does nothing. -/
theorem finish_eq {x : MCPoint ℝ} {n : Nuc ℝ} (hn : par.chain[x.n]? = some n) (st : St ℝ) (s : List ℝ) :
    finish par x st s = cascade par x.n x.k st s := by
  unfold finish
  split
  · rfl
  · next h =>
    have : x.k = 0 := by omega
    unfold cascade
    rw [hn, this]
    show _ = cascadeLoop par x.n n.levels (s.length + 1) 0 0 st s
    rw [cascadeLoop, if_pos rfl]

/-- A history with the given entries is complete after `k` random numbers exactly when the first ones lead through the continuum and
the others along the cascade. -/
theorem history_at {c : Nat} {n : Nuc ℝ} (hn : par.chain[c]? = some n) (hpr : Proper n.levels)
    (H : ∀ x, Reached par m x → x.disc = false → ∃ n0 n1 m0 m1, Pass par blank x n0 n1 m0 m1) (cs : List (Pid × Set ℝ))
    (q : List (Nat × Bool)) (hq : start q < n.levels.length) (hd : m.disc = false) (st : St ℝ)
    (hcap : cs.length + start q < par.cap) (hts : cs.length + start q ≤ st.ts.length)
    (hw : par.window ≤ 0 ∨ ∀ (i : Nat) (l : Level ℝ), n.levels[i]? = some l → l.halflife ≤ 0) {ω : ℕ → ℝ} (hω : Inside ω) (k : Nat) :
    (∃ st', historyLoop par st m (pre ω k) = .ok (st', []) ∧ Records c cs q st'.hs) ↔
      ∃ a, walk par (fun n i => n = c ∧ i = start q) cs m (pre ω a) = .ok ((), []) ∧ shift a ω ∈ Follows n.levels q ∧
        k = a + cost n.levels q := by
  have hQ : Quiet par n.levels 0 := by
    rcases hw with h | h
    · exact .inl h
    · exact .inr ⟨h, le_refl _⟩
  have hin : ∀ k, ∀ r ∈ pre ω k, 0 < r ∧ r < 1 := by
    intro k r hr
    obtain ⟨i, -, rfl⟩ := List.mem_map.mp hr
    exact hω i
  have hcas : ∀ i (st : St ℝ) (ω : ℕ → ℝ) k, cascade par c i st (pre ω k) = cascadeLoop par c n.levels (k + 1) i 0 st (pre ω k) := by
    intro i st ω k
    unfold cascade
    rw [hn]
    simp only [pre_length]
  have hlw := fun a => loop_walk (fun n i => n = c ∧ i = start q) H cs par.cap { st with hs := [] } m (pre ω a) [] (by omega)
    (by simp only [List.length_nil]; omega) hd .start (hin a)
  constructor
  · rintro ⟨st', h1, ys, zs, z, e1, e2, e3, e4, e5, e6⟩
    obtain ⟨⟨st1, x⟩, a, ha, g1, g2⟩ := (at_bind (local_contLoop _ _ _) st' k ω).mp h1
    obtain ⟨⟨f, st2⟩, s2, g3, g4⟩ := Rnd.bind_ok.mp g2
    dsimp only at g3 g4
    unfold marker at g4
    obtain ⟨nx, s3, g5', g4⟩ := Rnd.bind_ok.mp g4
    obtain ⟨g5, hs3⟩ := Rnd.get_ok.mp g5'
    obtain ⟨lx, s4, g6', g4⟩ := Rnd.bind_ok.mp g4
    obtain ⟨g6, hs4⟩ := Rnd.get_ok.mp g6'
    split at g4
    · cases g4
    · next hcap2 =>
      obtain ⟨g7, hs5⟩ := Rnd.pure_ok.mp g4
      obtain ⟨-, l2, ys1, l3, l4⟩ := loop_entries g1 hd
      rw [List.nil_append] at l3
      rw [finish_eq g5] at g3
      have hst' : st'.hs = st2.hs ++ [⟨.gamma, 0, levelPoint x.n f lx⟩] := by rw [← g7]
      obtain ⟨zs1, r1, r2, r3, r4, -⟩ := cascade_entries g5 g3
      rw [hst', r1, l3] at e1
      obtain ⟨e7, e8⟩ := List.append_inj' e1 rfl
      have hz : z = ⟨.gamma, 0, levelPoint x.n f lx⟩ := by simpa using e8.symm
      have hzs : ∀ y ∈ zs, y.mp.disc = true := by
        intro y hy
        have : (y.mp.disc, y.mp.n, y.mp.k, y.id) ∈ zs.map (fun h => (h.mp.disc, h.mp.n, h.mp.k, h.id)) := List.mem_map.mpr ⟨y, hy, rfl⟩
        rw [e4] at this
        obtain ⟨w, -, hw⟩ := List.mem_map.mp this
        exact (Prod.mk.inj hw).1.symm
      obtain ⟨rfl, rfl⟩ := split_unique e7 (fun y hy => (l4 y hy).1) e3 (fun y hy => (r4 y hy).1) hzs
      subst hz
      have hxc : x.n = c := e5
      have hf : f = 0 := e6
      subst hf
      have hstart : start q = x.k := by
        cases q with
        | nil =>
          have : zs1 = [] := by simpa using e4
          exact (r2 this)
        | cons w q =>
          cases zs1 with
          | nil => simp at e4
          | cons z0 zs =>
            simp only [List.map_cons, List.cons.injEq, Prod.mk.injEq] at e4
            rw [← r3 z0 rfl, e4.1.2.2.1]
            rfl
      refine ⟨a, (hlw a).mp ⟨st1, x, g1, ⟨ys1, by rw [l3]; rfl, e2⟩, hxc, hstart.symm⟩, ?_⟩
      have hlc : ys1.length = cs.length := (List.Forall₂.length_eq e2).symm
      have key := cascade_at hn hpr (start q) hq 0 st1 q (shift a ω) hQ (by rw [l3, hlc]; exact hcap)
        (by rw [l3, hlc, l2]; exact hts) (inside_shift hω a) (k - a)
      have key2 := (key.mp ⟨st2, ?_, ?_⟩).2
      · exact ⟨key2.1, by omega⟩
      · rw [← hcas, ← hxc, hstart, g3]
        rw [← hs3, ← hs4, hs5]
      · rw [r1, List.map_append]
        congr 1
        have := congrArg (List.map fun t : Bool × Nat × Nat × Pid => (t.2.2.1, t.2.2.2)) e4
        simp only [List.map_map] at this
        exact this
  · rintro ⟨a, h1, h2, h2k⟩
    obtain ⟨st1, x, g1, ⟨ys, g2, g3⟩, g4, g5⟩ := (hlw a).mpr h1
    rw [List.nil_append] at g2
    obtain ⟨-, l2, ys1, l3, l4⟩ := loop_entries g1 hd
    rw [List.nil_append] at l3
    have hy : ys1 = ys := by rw [← l3, g2]
    subst hy
    have hlc : ys1.length = cs.length := (List.Forall₂.length_eq g3).symm
    obtain ⟨st2, g6, g7⟩ := (cascade_at hn hpr (start q) hq 0 st1 q (shift a ω) hQ (by rw [l3, hlc]; exact hcap)
        (by rw [l3, hlc, l2]; exact hts) (inside_shift hω a) (cost n.levels q)).mpr ⟨rfl, h2, rfl⟩
    rw [← hcas] at g6
    have hlen : st1.hs.length < par.cap := by rw [l3, hlc]; omega
    obtain ⟨zs, r1, r2, r3, r4, r5⟩ := cascade_entries hn g6
    have hl0 : n.levels[0]? = some n.levels[0] := List.getElem?_eq_getElem (by omega)
    subst h2k
    refine ⟨{ st2 with hs := st2.hs ++ [⟨.gamma, 0, levelPoint c 0 n.levels[0]⟩] }, ?_, ys1, zs, _, by rw [r1, l3],
      g3, fun y hy => (l4 y hy).1, ?_, rfl, rfl⟩
    · refine (at_bind (local_contLoop _ _ _) _ (a + cost n.levels q) ω).mpr ⟨(st1, x), a, by omega, g1, ?_⟩
      rw [Nat.add_sub_cancel_left]
      show (finish par x st1 >>= fun f => marker par x.n f.1 f.2) (pre (shift a ω) (cost n.levels q)) = _
      have g8 : finish par x st1 (pre (shift a ω) (cost n.levels q)) = .ok ((0, st2), []) := by
        rw [finish_eq (n := n) (by rw [g4]; exact hn), g4, g5, g6]
      rw [Rnd.bind_of_ok g8]
      unfold marker
      rw [g4, hn, Rnd.bind_of_ok (Rnd.get_ok.mpr ⟨rfl, rfl⟩), hl0, Rnd.bind_of_ok (Rnd.get_ok.mpr ⟨rfl, rfl⟩), if_neg (not_le.mpr (r5 hlen))]
      rfl
    · rw [r1, List.map_append] at g7
      have e := congrArg (List.map fun t : Nat × Pid => (true, c, t.1, t.2)) (List.append_cancel_left g7)
      rw [List.map_map, List.map_map] at e
      refine Eq.trans (List.map_congr_left fun z hz => ?_) e
      obtain ⟨w1, w2, -⟩ := r4 z hz
      rw [w1, w2]
      rfl

theorem history_iff {c : Nat} {n : Nuc ℝ} (hn : par.chain[c]? = some n) (hpr : Proper n.levels)
    (H : ∀ x, Reached par m x → x.disc = false → ∃ n0 n1 m0 m1, Pass par blank x n0 n1 m0 m1) (cs : List (Pid × Set ℝ))
    (q : List (Nat × Bool)) (hq : start q < n.levels.length) (hd : m.disc = false) (st : St ℝ)
    (hcap : cs.length + start q < par.cap) (hts : cs.length + start q ≤ st.ts.length)
    (hw : par.window ≤ 0 ∨ ∀ (i : Nat) (l : Level ℝ), n.levels[i]? = some l → l.halflife ≤ 0) {ω : ℕ → ℝ} (hω : Inside ω) :
    (∃ k st', historyLoop par st m (pre ω k) = .ok (st', []) ∧ Records c cs q st'.hs) ↔
      ∃ a, walk par (fun n i => n = c ∧ i = start q) cs m (pre ω a) = .ok ((), []) ∧ shift a ω ∈ Follows n.levels q := by
  have key := history_at hn hpr H cs q hq hd st hcap hts hw hω
  constructor
  · rintro ⟨k, h⟩
    obtain ⟨a, h1, h2, -⟩ := (key k).mp h
    exact ⟨a, h1, h2⟩
  · rintro ⟨a, h1, h2⟩
    exact ⟨_, (key _).mpr ⟨a, h1, h2, rfl⟩⟩

/-- Law of a whole history. -/
theorem history_law (hp : ∀ n, PhysMeasurable (par.phys n)) {c : Nat} {n : Nuc ℝ} (hn : par.chain[c]? = some n) (hpr : Proper n.levels)
    (H : ∀ x, Reached par m x → x.disc = false → ∃ n0 n1 m0 m1, Pass par blank x n0 n1 m0 m1) (cs : List (Pid × Set ℝ))
    (hc : ∀ c ∈ cs, MeasurableSet c.2) (q : List (Nat × Bool)) (hq : start q < n.levels.length) (hd : m.disc = false) (st : St ℝ)
    (hcap : cs.length + start q < par.cap) (hts : cs.length + start q ≤ st.ts.length)
    (hw : par.window ≤ 0 ∨ ∀ (i : Nat) (l : Level ℝ), n.levels[i]? = some l → l.halflife ≤ 0) :
    stream {ω | ∃ k st', historyLoop par st m (pre ω k) = .ok (st', []) ∧ Records c cs q st'.hs} =
      patternValue par (fun n i => n = c ∧ i = start q) cs m * ENNReal.ofReal (weight n.levels q) := by
  rw [← walk_value hp _ H cs hc m (.inr .start), ← stream_follows hpr q,
    ← stop_indep (local_walk _ cs m) (walk_meas hp _ cs hc m) (measurable_follows hpr q)]
  apply stream_congr
  intro ω hω
  exact history_iff hn hpr H cs q hq hd st hcap hts hw hω

end CGMF.HF
