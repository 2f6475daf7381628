import Verif.Proofs.Energy

/-! # Time stamps and the record of emitted particles -/

set_option linter.unusedSectionVars false

namespace CGMF.MC

open CGMF.Grid CGMF.HF

variable {K : Type} [Field K] [LinearOrder K] [IsStrictOrderedRing K]

/-! ## Recording -/

theorem push_ok {α : Type} {size : Nat} {xs ys : List α} {x : α} (h : push size xs x = .ok ys) :
    xs.length < size ∧ ys = xs ++ [x] := by
  unfold push at h
  split at h
  · rename_i hl; cases h; exact ⟨hl, rfl⟩
  · cases h

theorem energies_cons (id : Pid) (h : Hist K) (hs : List (Hist K)) :
    energies id (h :: hs) = (if h.id = id then [h.ep] else []) ++ energies id hs := by
  unfold energies
  rw [List.filter_cons]
  split <;> rename_i hc
  · rw [if_pos (by simpa using hc)]; simp
  · rw [if_neg (by simpa using hc)]; simp

theorem recordLoop_ok {nn ng ni : Nat} {ts : List K} : ∀ {hs : List (Hist K)} {i : Nat} {r r' : Rec K},
    recordLoop nn ng ni ts i hs r = .ok r' →
    r'.n = r.n ++ energies .neutron hs ∧ r'.g.map Prod.fst = r.g.map Prod.fst ++ energies .gamma hs ∧
    r'.ic = r.ic ++ energies .ic hs ∧
    (r.n.length ≤ nn → r'.n.length ≤ nn) ∧ (r.g.length ≤ ng → r'.g.length ≤ ng) ∧
    (r.ic.length ≤ ni → r'.ic.length ≤ ni) := by
  intro hs
  induction hs with
  | nil =>
    intro i r r' h
    rw [recordLoop] at h
    cases h
    simp [energies]
  | cons a hs ih =>
    intro i r r' h
    rw [recordLoop] at h
    obtain ⟨r1, h1, h2⟩ := Res.bind_eq_ok.mp h
    obtain ⟨e1, e2, e3, e4, e5, e6⟩ := ih h2
    rw [energies_cons, energies_cons, energies_cons, e1, e2, e3]
    unfold recordOne at h1
    cases hid : a.id with
    | neutron =>
      rw [hid] at h1
      obtain ⟨n, g1, g2⟩ := Res.bind_eq_ok.mp h1
      obtain ⟨g3, rfl⟩ := push_ok g1
      cases g2
      simp only [List.length_append, List.length_cons, List.length_nil] at e4
      refine ⟨by simp, by simp, by simp, fun _ => ?_, e5, fun h => by have := e6 h; rwa [e3] at this⟩
      have := e4 (by omega)
      rwa [e1] at this
    | gamma =>
      rw [hid] at h1
      obtain ⟨t, -, h1⟩ := Res.bind_eq_ok.mp h1
      obtain ⟨n, g1, g2⟩ := Res.bind_eq_ok.mp h1
      obtain ⟨g3, rfl⟩ := push_ok g1
      cases g2
      simp only [List.length_append, List.length_cons, List.length_nil] at e5
      exact ⟨by simp, by simp, by simp, fun h => by have := e4 h; rwa [e1] at this, fun _ => e5 (by omega),
        fun h => by have := e6 h; rwa [e3] at this⟩
    | ic =>
      rw [hid] at h1
      obtain ⟨n, g1, g2⟩ := Res.bind_eq_ok.mp h1
      obtain ⟨g3, rfl⟩ := push_ok g1
      cases g2
      simp only [List.length_append, List.length_cons, List.length_nil] at e6
      refine ⟨by simp, by simp, by simp, fun h => by have := e4 h; rwa [e1] at this, e5, fun _ => ?_⟩
      have := e6 (by omega)
      rwa [e3] at this

/-- With a list of ages for all entries, the photon list carries the ages of the photons. -/
theorem recordLoop_times {nn ng ni : Nat} {ts : List K} : ∀ {hs : List (Hist K)} {i : Nat} {r r' : Rec K}
    {ages : List K}, recordLoop nn ng ni ts i hs r = .ok r' → ages.length = hs.length →
    (∀ k h a, hs[k]? = some h → ages[k]? = some a → stamp ts (i + k) h = .ok a) →
    r'.g = r.g ++ ((hs.zip ages).filter (fun p => p.1.id = .gamma)).map (fun p => (p.1.ep, p.2)) := by
  intro hs
  induction hs with
  | nil =>
    intro i r r' ages h _ _
    rw [recordLoop] at h
    cases h
    simp
  | cons a hs ih =>
    intro i r r' ages h hlen hst
    cases ages with
    | nil => simp at hlen
    | cons x ages =>
      rw [recordLoop] at h
      obtain ⟨r1, h1, h2⟩ := Res.bind_eq_ok.mp h
      have e := ih (ages := ages) h2 (by simpa using hlen) (by
        intro k h a hk ha
        have := hst (k + 1) h a (by simpa using hk) (by simpa using ha)
        rwa [show i + (k + 1) = i + 1 + k by omega] at this)
      have h0 := hst 0 a x (by simp) (by simp)
      rw [e, List.zip_cons_cons, List.filter_cons]
      unfold recordOne at h1
      cases hid : a.id with
      | neutron =>
        rw [hid] at h1
        obtain ⟨n, g1, g2⟩ := Res.bind_eq_ok.mp h1
        cases g2
        simp
      | gamma =>
        rw [hid] at h1
        obtain ⟨t, ht, h1⟩ := Res.bind_eq_ok.mp h1
        rw [Nat.add_zero] at h0
        rw [h0] at ht
        cases ht
        obtain ⟨n, g1, g2⟩ := Res.bind_eq_ok.mp h1
        obtain ⟨g3, rfl⟩ := push_ok g1
        cases g2
        simp
      | ic =>
        rw [hid] at h1
        obtain ⟨n, g1, g2⟩ := Res.bind_eq_ok.mp h1
        cases g2
        simp

theorem recordLoop_total {nn ng ni : Nat} {ts : List K} : ∀ {hs : List (Hist K)} {i : Nat} {r : Rec K},
    (∀ k h, hs[k]? = some h → ∃ a, stamp ts (i + k) h = .ok a) →
    r.n.length + (energies .neutron hs).length ≤ nn → r.g.length + (energies .gamma hs).length ≤ ng →
    r.ic.length + (energies .ic hs).length ≤ ni → ∃ r', recordLoop nn ng ni ts i hs r = .ok r' := by
  intro hs
  induction hs with
  | nil => intro i r _ _ _ _; exact ⟨r, rfl⟩
  | cons a hs ih =>
    intro i r hst h1 h2 h3
    have hst' : ∀ k h, hs[k]? = some h → ∃ a, stamp ts (i + 1 + k) h = .ok a := by
      intro k h hk
      have := hst (k + 1) h (by simpa using hk)
      rwa [show i + (k + 1) = i + 1 + k by omega] at this
    obtain ⟨t, ht⟩ := hst 0 a (by simp)
    rw [Nat.add_zero] at ht
    rw [energies_cons] at h1 h2 h3
    rw [recordLoop]
    unfold recordOne
    cases hid : a.id with
    | neutron =>
      simp only [hid, if_true, reduceCtorEq, if_false, List.length_append, List.length_cons, List.length_nil] at h1 h2 h3
      simp only [push, if_pos (show r.n.length < nn by omega), Res.bind_ok, Res.pure_eq]
      exact ih hst' (by simp; omega) (by simp; omega) (by simp; omega)
    | gamma =>
      simp only [hid, if_true, reduceCtorEq, if_false, List.length_append, List.length_cons, List.length_nil] at h1 h2 h3
      simp only [ht, push, if_pos (show r.g.length < ng by omega), Res.bind_ok, Res.pure_eq]
      exact ih hst' (by simp; omega) (by simp; omega) (by simp; omega)
    | ic =>
      simp only [hid, if_true, reduceCtorEq, if_false, List.length_append, List.length_cons, List.length_nil] at h1 h2 h3
      simp only [push, if_pos (show r.ic.length < ni by omega), Res.bind_ok, Res.pure_eq]
      exact ih hst' (by simp; omega) (by simp; omega) (by simp; omega)

theorem push_not_exit {α : Type} {size : Nat} {xs : List α} {x : α} : push size xs x ≠ .exit := by
  unfold push; split <;> simp

theorem stamp_not_exit {ts : List K} {i : Nat} {h : Hist K} : stamp ts i h ≠ .exit := by
  unfold stamp readAt
  split
  · split <;> simp
  · simp

theorem recordLoop_not_exit {nn ng ni : Nat} {ts : List K} : ∀ {hs : List (Hist K)} {i : Nat} {r : Rec K},
    recordLoop nn ng ni ts i hs r ≠ .exit := by
  intro hs
  induction hs with
  | nil => intro i r; simp [recordLoop]
  | cons a hs ih =>
    intro i r
    rw [recordLoop]
    have h1 : recordOne nn ng ni ts i a r ≠ .exit := by
      unfold recordOne
      cases hid : a.id with
      | neutron =>
        simp only
        cases hp : push nn r.n a.ep with
        | ok => simp
        | exit => exact absurd hp push_not_exit
        | ub => simp
      | gamma =>
        simp only
        cases hs : stamp ts i a with
        | ok t =>
          simp only [Res.bind_ok]
          cases hp : push ng r.g (a.ep, t) with
          | ok => simp
          | exit => exact absurd hp push_not_exit
          | ub => simp
        | exit => exact absurd hs stamp_not_exit
        | ub => simp
      | ic =>
        simp only
        cases hp : push ni r.ic a.ep with
        | ok => simp
        | exit => exact absurd hp push_not_exit
        | ub => simp
    cases hr : recordOne nn ng ni ts i a r with
    | ok r1 => simp only [Res.bind_ok]; exact ih
    | exit => exact absurd hr h1
    | ub => simp

/-! ## Ages -/

/-- Ages of the entries recorded so far, the clock standing at `t`. -/
def Aged (par : Par K) (t : K) (st : St K) : Prop :=
  0 ≤ t ∧ (0 < par.window → t ≤ par.window) ∧ ∃ ages : List K, ages.length = st.hs.length ∧
    (∀ i h a, st.hs[i]? = some h → ages[i]? = some a →
      stamp st.ts i h = .ok a ∧ (h.mp.disc = false → a = 0)) ∧
    ages.Pairwise (· ≤ ·) ∧ ∀ a ∈ ages, 0 ≤ a ∧ a ≤ t

theorem readAt_set_ne {ts : List K} {i j : Nat} {v : K} (h : i ≠ j) :
    readAt (ts.set j v) (i : Int) = readAt ts (i : Int) := by
  unfold readAt
  simp only [List.length_set, Int.toNat_natCast]
  split
  · rw [List.getElem_set_ne (by omega)]
  · rfl

theorem readAt_set_eq {ts : List K} {j : Nat} {v : K} (h : j < ts.length) :
    readAt (ts.set j v) (j : Int) = .ok v := by
  unfold readAt
  rw [dif_pos ⟨by omega, by simpa using h⟩]
  simp

theorem writeAt_ok {ts ts' : List K} {i : Nat} {v : K} (h : writeAt ts (i : Int) v = .ok ts') :
    i < ts.length ∧ ts' = ts.set i v := by
  unfold writeAt at h
  split at h
  · rename_i hc
    cases h
    exact ⟨by simpa using hc.2, by simp⟩
  · cases h

theorem Aged.snoc_cont {par : Par K} {st : St K} (h : Aged par 0 st) {e : Hist K} (he : e.mp.disc = false)
    {jm : Nat → Int} : Aged par 0 { st with hs := st.hs ++ [e], jmax := jm } := by
  obtain ⟨h1, h2, ages, h3, h4, h5, h6⟩ := h
  refine ⟨h1, h2, ages ++ [0], by simp [h3], ?_, ?_, ?_⟩
  · intro i h a hh ha
    rcases Nat.lt_or_ge i st.hs.length with hi | hi
    · simp only at hh
      rw [List.getElem?_append_left hi] at hh
      rw [List.getElem?_append_left (by omega)] at ha
      exact h4 i h a hh ha
    · have hi' : i = st.hs.length := by
        have := (List.getElem?_eq_some_iff.mp hh).1
        simp at this
        omega
      subst hi'
      simp only at hh
      rw [List.getElem?_append_right le_rfl] at hh
      rw [← h3, List.getElem?_append_right le_rfl] at ha
      simp at hh ha
      subst hh ha
      refine ⟨?_, fun _ => rfl⟩
      unfold stamp
      rw [he]
      simp
  · rw [List.pairwise_append]
    refine ⟨h5, by simp, ?_⟩
    intro a ha b hb
    rw [List.mem_singleton] at hb
    subst hb
    exact (h6 a ha).2
  · intro a ha
    rcases List.mem_append.mp ha with ha | ha
    · exact h6 a ha
    · rw [List.mem_singleton] at ha; subst ha; exact ⟨le_rfl, le_rfl⟩

theorem Aged.snoc_disc {par : Par K} {st : St K} {t t' : K} (h : Aged par t st) {e : Hist K}
    (he : e.mp.disc = true) (htt : t ≤ t') (hw : ¬ (0 < par.window ∧ par.window < t')) {ts : List K}
    (hts : writeAt st.ts (st.hs.length : Int) t' = .ok ts) :
    Aged par t' { st with hs := st.hs ++ [e], ts := ts } := by
  obtain ⟨h1, h2, ages, h3, h4, h5, h6⟩ := h
  obtain ⟨hlt, rfl⟩ := writeAt_ok hts
  refine ⟨h1.trans htt, fun hp => not_lt.mp fun hc => hw ⟨hp, hc⟩, ages ++ [t'], by simp [h3], ?_, ?_, ?_⟩
  · intro i h a hh ha
    rcases Nat.lt_or_ge i st.hs.length with hi | hi
    · simp only at hh
      rw [List.getElem?_append_left hi] at hh
      rw [List.getElem?_append_left (by omega)] at ha
      obtain ⟨q1, q2⟩ := h4 i h a hh ha
      refine ⟨?_, q2⟩
      unfold stamp at q1 ⊢
      rw [readAt_set_ne (by omega)]
      exact q1
    · have hi' : i = st.hs.length := by
        have := (List.getElem?_eq_some_iff.mp hh).1
        simp at this
        omega
      subst hi'
      simp only at hh
      rw [List.getElem?_append_right le_rfl] at hh
      rw [← h3, List.getElem?_append_right le_rfl] at ha
      simp at hh ha
      subst hh ha
      refine ⟨?_, fun hf => by rw [he] at hf; cases hf⟩
      unfold stamp
      rw [he, if_pos rfl]
      exact readAt_set_eq hlt
  · rw [List.pairwise_append]
    refine ⟨h5, by simp, ?_⟩
    intro a ha b hb
    rw [List.mem_singleton] at hb
    subst hb
    exact (h6 a ha).2.trans htt
  · intro a ha
    rcases List.mem_append.mp ha with ha | ha
    · exact ⟨(h6 a ha).1, (h6 a ha).2.trans htt⟩
    · rw [List.mem_singleton] at ha; subst ha; exact ⟨h1.trans htt, le_rfl⟩

theorem Aged.clock {par : Par K} {st : St K} {t t' : K} (h : Aged par t st) (htt : t ≤ t')
    (hw : ¬ (0 < par.window ∧ par.window < t')) : Aged par t' st := by
  obtain ⟨h1, h2, ages, h3, h4, h5, h6⟩ := h
  exact ⟨h1.trans htt, fun hp => not_lt.mp fun hc => hw ⟨hp, hc⟩, ages, h3, h4, h5,
    fun a ha => ⟨(h6 a ha).1, (h6 a ha).2.trans htt⟩⟩

theorem stay_le {par : Par K} (hd : ∀ r, 0 < r → r ≤ 1 → 0 ≤ par.delay r) {l : Level K} {t t' : K}
    {s s' : List K} (hr : ∀ r ∈ s, 0 < r ∧ r ≤ 1) (h : stay par l t s = .ok (t', s')) : t ≤ t' := by
  rcases stay_ok h with ⟨hh, r, rfl, rfl⟩ | ⟨-, -, rfl⟩
  · have := hr r (by simp)
    have := mul_nonneg (hd r this.1 this.2) hh.le
    linarith
  · exact le_rfl

theorem cascade_aged {par : Par K} (hd : ∀ r, 0 < r → r ≤ 1 → 0 ≤ par.delay r) {c i f : Nat} {st st' : St K}
    {s s' : List K} (hr : ∀ r ∈ s, 0 < r ∧ r ≤ 1) (ha : Aged par 0 st)
    (h : cascade par c i st s = .ok ((f, st'), s')) : ∃ t, Aged par t st' := by
  obtain ⟨n, hn, h⟩ := cascade_ok h
  obtain ⟨t1, s1, ⟨-, h⟩, -⟩ := cascadeLoop_ind
    (I := fun _ t st s => (∀ r ∈ s, 0 < r ∧ r ≤ 1) ∧ Aged par t st)
    (by
      rintro i t st s l t' r s1 s2 ⟨i1, i2⟩ _ _ hst hw rfl _
      have hsuf := ((stay_needs _ _ _ _).2 _ _ hst).2
      exact ⟨fun r hr => i1 r (hsuf.subset (by simp [hr])), i2.clock (stay_le hd i1 hst) hw⟩)
    (by
      rintro i t st s l t' r x s1 s2 b l1 ts st' ⟨i1, i2⟩ _ hl' hst hw rfl hb hts hl1 hstore
      have hsuf := ((stay_needs _ _ _ _).2 _ _ hst).2
      refine ⟨fun r hr => i1 r (hsuf.subset (by simp [hr])), ?_⟩
      obtain ⟨-, -, n0, -, rfl⟩ := store_ok hstore
      rw [if_pos (show (levelPoint c i l).n = (levelPoint c b.fstate l1).n from rfl)]
      exact i2.snoc_disc rfl (stay_le hd i1 hst) hw hts) _ _ _ _ _ _ _ _ ⟨hr, ha⟩ h
  exact ⟨t1, h⟩

theorem aged_empty {par : Par K} {st : St K} (h : st.hs = []) : Aged par 0 st := by
  refine ⟨le_rfl, fun h => h.le, [], by simp [h], ?_, List.Pairwise.nil, by simp⟩
  intro i e a he
  rw [h] at he
  simp at he

theorem contLoop_suffix {par : Par K} {st st' : St K} {m x : MCPoint K} {s s' : List K} {f : Nat}
    (h : contLoop par f st m s = .ok ((st', x), s')) : s' <:+ s :=
  (contLoop_ind (I := fun _ _ s1 => s1 <:+ s)
    (fun _ _ _ _ _ _ hi h => (contStep_suffix h).trans hi) _ _ _ _ _ _ _ (List.suffix_refl _) h).1

theorem decay_aged {par : Par K} (hd : ∀ r, 0 < r → r ≤ 1 → 0 ≤ par.delay r) {st st' : St K} {E : K}
    {jint p0 : Int} {s s' : List K} (hr : ∀ r ∈ s, 0 < r ∧ r ≤ 1)
    (h : decay par st E jint p0 s = .ok (st', s')) :
    ∃ t st1 mk, Aged par t st1 ∧ st' = { st1 with hs := st1.hs ++ [mk] } := by
  obtain ⟨n0, m0, h1, h2, h⟩ := decay_ok h
  rcases h with ⟨hc, f, st1, h3, h4⟩ | ⟨hc, pj, h3, h4⟩
  · obtain ⟨-, -, n, l, -, -, rfl⟩ := marker_ok h4
    obtain ⟨t, ht⟩ := cascade_aged hd hr (aged_empty rfl) h3
    exact ⟨t, st1, _, ht, rfl⟩
  · obtain ⟨st1, x, s1, f, st2, g1, g2, g3⟩ := historyLoop_ok h4
    obtain ⟨-, -, n, l, -, -, rfl⟩ := marker_ok g3
    have e1 : Aged par 0 st1 := by
      refine (contLoop_ind' (I := fun st _ _ => Aged par 0 st) ?_ _ _ _ _ _ _ _ (aged_empty rfl) rfl g1).1
      intro st m s st' x s' hi hm hst
      obtain ⟨n0, m0, d, pops, x1, x2, jm, s1, s2, s3, s4, s5, -, -, -, -, -, -, -, -, -, -, h8⟩ := contStep_ok hst
      obtain ⟨-, -, n0, -, rfl⟩ := store_ok h8
      refine hi.snoc_cont (jm := jm) ?_
      split <;> exact hm
    rcases g2 with ⟨-, -, rfl, -⟩ | ⟨-, g2⟩
    · exact ⟨0, st2, _, e1, rfl⟩
    · obtain ⟨t, ht⟩ := cascade_aged hd (fun r h => hr r ((contLoop_suffix g1).subset h)) e1 g2
      exact ⟨t, st2, _, ht, rfl⟩

/-! ## The discrete cascade as a walk through the level scheme -/

theorem cascade_walk {par : Par K} {c i f : Nat} {st st' : St K} {s s' : List K}
    (h : cascade par c i st s = .ok ((f, st'), s')) :
    ∃ n new, par.chain[c]? = some n ∧ st'.hs = st.hs ++ new ∧ Walk n.levels c i new f ∧
      (f = 0 ∨ (0 < par.window ∧ ∃ l, n.levels[f]? = some l ∧ 0 < l.halflife)) := by
  obtain ⟨n, hn, h⟩ := cascade_ok h
  obtain ⟨t1, s1, ⟨hw, new, h1, h2⟩, h3⟩ := cascadeLoop_ind
    (I := fun j t st1 _ => (0 < par.window → t ≤ par.window) ∧ ∃ new, st1.hs = st.hs ++ new ∧ Walk n.levels c i new j)
    (by
      rintro i t st s l t' r s1 s2 ⟨i1, i2⟩ _ _ hst hw rfl _
      exact ⟨fun hp => not_lt.mp fun hc => hw ⟨hp, hc⟩, i2⟩)
    (by
      rintro i t st s l t' r x s1 s2 b l1 ts st' ⟨i1, new, i2, i3⟩ _ hl' hst hw rfl hb hts hl1 hstore
      refine ⟨fun hp => not_lt.mp fun hc => hw ⟨hp, hc⟩, ?_⟩
      obtain ⟨-, -, n0, -, rfl⟩ := store_ok hstore
      rw [if_pos (show (levelPoint c i l).n = (levelPoint c b.fstate l1).n from rfl)]
      obtain ⟨y, hy⟩ := firstReach_mem hb
      obtain ⟨b', hb', e⟩ := List.mem_map.mp hy
      cases e
      refine ⟨_, ?_, Walk.snoc (id := if decide (b.gratio < x) = true then .ic else .gamma) i3 hl' hb' hl1 ?_⟩
      · simp only [i2, List.append_assoc]; rfl
      · split <;> simp)
    _ _ _ _ _ _ _ _ ⟨fun h => h.le, [], by simp, Walk.nil i⟩ h
  refine ⟨n, new, hn, h1, h2, ?_⟩
  rcases h3 with h3 | ⟨l, t2, s2, g1, g2, g3, g4⟩
  · exact Or.inl h3
  · right
    refine ⟨g3, l, g1, ?_⟩
    rcases stay_ok g2 with ⟨hh, -⟩ | ⟨-, -, rfl⟩
    · exact hh
    · exact absurd (hw g3) (not_le.mpr g4)

/-! ## A ladder of levels overruns the array of time stamps -/

/-- Level `i` of a ladder: it decays to level `i - 1` only, by photon emission. -/
def IsRung (levels : List (Level K)) (i : Nat) : Prop :=
  ∃ l, levels[i]? = some l ∧ l.halflife = 0 ∧ l.branches = [⟨i - 1, 1, 1⟩]

theorem ladder_ub {par : Par K} {c : Nat} {n : Nuc K} (hn : par.chain[c]? = some n)
    (hw : ¬ 0 < par.window) : ∀ (i f : Nat) (t : K) (st : St K) (s : List K), i < n.levels.length →
    (∀ k, 0 < k → k ≤ i → IsRung n.levels k) → st.hs.length ≤ st.ts.length → st.ts.length < st.hs.length + i →
    st.ts.length + 1 < par.cap → 2 * i ≤ s.length → s.length < f → (∀ r ∈ s, r ≤ 1) →
    cascadeLoop par c n.levels f i t st s = .ub := by
  intro i
  induction i with
  | zero => intro f t st s _ _ h1 h2; omega
  | succ i ih =>
    intro f t st s hi hr h1 h2 hcap hs hf hr1
    cases f with
    | zero => omega
    | succ f =>
      obtain ⟨l, hl, hh, hb⟩ := hr (i + 1) (by omega) le_rfl
      match s, hs with
      | r :: x :: s, hs =>
        rw [cascadeLoop, if_neg (by omega), Rnd.bind_run, hl]
        simp only [Rnd.get]
        rw [Rnd.bind_run, stay, if_neg (by rw [hh]; exact lt_irrefl _)]
        simp only [Rnd.pure_run]
        rw [if_neg (fun h => hw h.1), Rnd.bind_run]
        simp only [Rnd.draw_cons, hb, pickBranch, List.map_cons, List.map_nil, firstReach, zero_add]
        rw [if_pos (hr1 r (by simp))]
        simp only
        rw [Rnd.bind_run]
        simp only [Rnd.draw_cons]
        rw [Rnd.bind_run]
        rcases Nat.lt_or_ge st.hs.length st.ts.length with hlt | hge
        · have hw1 : writeAt st.ts (st.hs.length : Int) t = .ok (st.ts.set st.hs.length t) := by
            unfold writeAt
            rw [if_pos ⟨by omega, by simpa using hlt⟩]
            simp
          rw [hw1]
          simp only [Rnd.lift]
          rw [Rnd.bind_run]
          have hl1 : n.levels[i + 1 - 1]? = some n.levels[i] := by
            rw [Nat.add_sub_cancel]; simp
          rw [hl1]
          simp only [Rnd.get]
          rw [Rnd.bind_run]
          unfold store
          rw [if_neg (by simp only; omega), Rnd.bind_run]
          simp only [levelPoint, hn, Rnd.get]
          rw [if_neg (by omega)]
          simp only [Rnd.pure_run, Nat.add_sub_cancel]
          refine ih _ _ _ _ (by omega) (fun k h1 h2 => hr k h1 (by omega)) ?_ ?_ ?_ ?_ ?_ ?_
          · simp; omega
          · simp; omega
          · simpa using hcap
          · simp only [List.length_cons] at hs; omega
          · simp only [List.length_cons] at hf; omega
          · exact fun r h => hr1 r (by simp [h])
        · have hw1 : writeAt st.ts (st.hs.length : Int) t = .ub := by
            unfold writeAt
            rw [if_neg (by simp; omega)]
          rw [hw1]
          rfl

end CGMF.MC
