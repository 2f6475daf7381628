import Verif.Spec.Cascade
import Verif.Proofs.Grid

/-! # Lemmas about the decay loop -/

set_option linter.unusedSectionVars false

namespace CGMF.MC

open CGMF.Grid CGMF.HF

variable {K : Type} [Field K] [LinearOrder K] [IsStrictOrderedRing K]

/-! ## Generic selection -/

theorem firstReach_some {α : Type} {r : K} : ∀ {l : List (α × K)} {s : K} {a : α},
    firstReach r s l = some a → ∃ l1 x l2, l = l1 ++ (a, x) :: l2 ∧ r ≤ s + (l1.map Prod.snd).sum + x ∧
      (l1 ≠ [] → s + (l1.map Prod.snd).sum < r) := by
  intro l
  induction l with
  | nil => intro s a h; simp [firstReach] at h
  | cons p l ih =>
    intro s a h
    obtain ⟨b, y⟩ := p
    by_cases hc : r ≤ s + y
    · simp only [firstReach, if_pos hc, Option.some.injEq] at h
      subst h
      exact ⟨[], y, l, rfl, by simpa using hc, by simp⟩
    · simp only [firstReach, if_neg hc] at h
      obtain ⟨l1, x, l2, e, h1, h2⟩ := ih h
      refine ⟨(b, y) :: l1, x, l2, by simp [e], ?_, ?_⟩
      · simp only [List.map_cons, List.sum_cons]
        calc r ≤ s + y + (l1.map Prod.snd).sum + x := h1
          _ = s + (y + (l1.map Prod.snd).sum) + x := by ring
      · intro _
        simp only [List.map_cons, List.sum_cons]
        by_cases hl : l1 = []
        · subst hl; simpa using not_le.mp hc
        · calc s + (y + (l1.map Prod.snd).sum) = s + y + (l1.map Prod.snd).sum := by ring
            _ < r := h2 hl

theorem firstReach_none {α : Type} {r : K} : ∀ {l : List (α × K)} {s : K},
    firstReach r s l = none → l ≠ [] → s + (l.map Prod.snd).sum < r := by
  intro l
  induction l with
  | nil => intro s _ h; exact absurd rfl h
  | cons p l ih =>
    intro s h _
    obtain ⟨b, y⟩ := p
    by_cases hc : r ≤ s + y
    · simp [firstReach, if_pos hc] at h
    · simp only [firstReach, if_neg hc] at h
      simp only [List.map_cons, List.sum_cons]
      by_cases hl : l = []
      · subst hl; simpa using not_le.mp hc
      · have := ih h hl
        calc s + (y + (l.map Prod.snd).sum) = s + y + (l.map Prod.snd).sum := by ring
          _ < r := this

theorem firstReach_mem {α : Type} {r s : K} {l : List (α × K)} {a : α}
    (h : firstReach r s l = some a) : ∃ x, (a, x) ∈ l := by
  obtain ⟨l1, x, l2, e, -⟩ := firstReach_some h
  exact ⟨x, by simp [e]⟩

/-! ## store -/

theorem store_ok {par : Par K} {ic : Bool} {m0 m1 : MCPoint K} {st st' : St K} {s s' : List K}
    (h : store par ic m0 m1 st s = .ok (st', s')) :
    s' = s ∧ st.hs.length + 1 < par.cap ∧ ∃ n0, par.chain[m0.n]? = some n0 ∧
      st' = { st with hs := st.hs ++ [if m0.n = m1.n then ⟨if ic then .ic else .gamma, m0.e - m1.e, m0⟩
        else ⟨.neutron, m0.e - m1.e - n0.sn, m0⟩] } := by
  unfold store at h
  split at h
  · simp at h
  · rename_i h1
    rw [Rnd.bind_ok] at h
    obtain ⟨n0, s1, h2, h3⟩ := h
    obtain ⟨h4, rfl⟩ := Rnd.get_ok.mp h2
    split at h3
    · simp at h3
    · rename_i h5
      obtain ⟨h6, h7⟩ := Rnd.pure_ok.mp h3
      exact ⟨h7.symm, by omega, n0, h4, h6.symm⟩

theorem store_path {par : Par K} {ic : Bool} {m0 m1 a : MCPoint K} {st st' : St K} {s s' : List K}
    (h : store par ic m0 m1 st s = .ok (st', s')) (hp : Path (snOf par.chain) a st.hs m0)
    (hn : m1.n = m0.n ∨ (m1.n = m0.n + 1)) :
    Path (snOf par.chain) a st'.hs m1 := by
  obtain ⟨-, -, n0, h1, rfl⟩ := store_ok h
  refine Path.snoc hp ?_ ?_
  · split <;> rfl
  · by_cases hc : m0.n = m1.n
    · rw [if_pos hc]
      refine Or.inr ⟨?_, hc.symm, ?_⟩
      · cases ic <;> simp
      · simp
    · rw [if_neg hc]
      have hn' : m1.n = m0.n + 1 := by
        rcases hn with h | h
        · exact absurd h.symm hc
        · exact h
      refine Or.inl ⟨rfl, hn', ?_⟩
      simp only [snOf, h1]
      ring

/-! ## findNext, perturb, lowCut -/

/-- Where the next state can be. -/
inductive NextAt (c0 : Nat) (n0 n1 : Nuc K) (m0 m1 : Mesh K) (pops : Pops K) (x : MCPoint K) : Prop where
  | parent (c : Cell) : c ∈ cells 1 m0.ncont pops.jmax0 n0.levels.length →
      cellPoint c0 n0 m0 c = some x → NextAt c0 n0 n1 m0 m1 pops x
  | daughter (c : Cell) (r : K) (l1 l2 : List ((Bool × Cell) × K)) : n0.status = true →
      c ∈ cells 0 m1.ncont pops.jmax1 n1.levels.length →
      candidates n0 n1 m0 m1 pops = l1 ++ ((true, c), popOf pops.n c) :: l2 →
      r ≤ (l1.map Prod.snd).sum + popOf pops.n c → (l1 ≠ [] → (l1.map Prod.snd).sum < r) →
      cellPoint n0.next n1 m1 c = some x → NextAt c0 n0 n1 m0 m1 pops x
  | forced (i : Nat) (l : Level K) : n0.levels[i]? = some l → x = levelPoint c0 i l →
      NextAt c0 n0 n1 m0 m1 pops x

theorem get_level_ok {levels : List (Level K)} {c i : Nat} {x : MCPoint K} {s s' : List K}
    (h : Rnd.get (levels[i]?.map (levelPoint c i)) s = .ok (x, s')) :
    s' = s ∧ ∃ l, levels[i]? = some l ∧ x = levelPoint c i l := by
  obtain ⟨h1, h2⟩ := Rnd.get_ok.mp h
  obtain ⟨l, h3, h4⟩ := Option.map_eq_some_iff.mp h1
  exact ⟨h2, l, h3, h4.symm⟩

theorem findNext_ok {c0 : Nat} {n0 n1 : Nuc K} {m0 m1 : Mesh K} {pops : Pops K} {p j : Int}
    {x : MCPoint K} {s s' : List K} (h : findNext c0 n0 n1 m0 m1 pops p j s = .ok (x, s')) :
    NextAt c0 n0 n1 m0 m1 pops x := by
  unfold findNext at h
  rw [Rnd.bind_ok] at h
  obtain ⟨r, s1, h1, h2⟩ := h
  generalize hc : firstReach r 0 (candidates n0 n1 m0 m1 pops) = o at h2
  rcases o with _ | ⟨_ | _, c⟩
  rotate_left
  · obtain ⟨y, hy⟩ := firstReach_mem hc
    obtain ⟨h3, -⟩ := Rnd.get_ok.mp h2
    refine .parent c ?_ h3
    unfold candidates at hy
    rcases List.mem_append.mp hy with hy | hy
    · obtain ⟨c', h4, h5⟩ := List.mem_map.mp hy
      cases h5; exact h4
    · split at hy
      · obtain ⟨c', h4, h5⟩ := List.mem_map.mp hy
        cases h5
      · cases hy
  · obtain ⟨l1, y, l2, e, h4, h5⟩ := firstReach_some hc
    obtain ⟨h3, -⟩ := Rnd.get_ok.mp h2
    have hy : ((true, c), y) ∈ candidates n0 n1 m0 m1 pops := by rw [e]; simp
    have key : n0.status = true ∧ c ∈ cells 0 m1.ncont pops.jmax1 n1.levels.length ∧
        y = popOf pops.n c := by
      unfold candidates at hy
      rcases List.mem_append.mp hy with hy | hy
      · obtain ⟨c', h4, h5⟩ := List.mem_map.mp hy
        cases h5
      · split at hy
        · rename_i hs
          obtain ⟨c', h4', h5'⟩ := List.mem_map.mp hy
          cases h5'; exact ⟨hs, h4', rfl⟩
        · cases hy
    obtain ⟨k1, k2, rfl⟩ := key
    refine .daughter c r l1 l2 k1 k2 e ?_ ?_ h3
    · simpa using h4
    · intro hl; simpa using h5 hl
  · replace h2 := Rnd.bind_ok.mp h2
    obtain ⟨i, s2, h3, h4⟩ := h2
    obtain ⟨-, l, h5, h6⟩ := get_level_ok h4
    exact .forced i l h5 h6

theorem cellPoint_cases {c : Nat} {n : Nuc K} {m : Mesh K} {d : Cell} {x : MCPoint K}
    (h : cellPoint c n m d = some x) :
    x.n = c ∧ ((∃ k idx ev, d = .cont k idx ev ∧ x = ⟨c, if ev then 1 else -1, idx, k, m.exc k, false⟩) ∨
      (∃ i l, d = .disc i ∧ n.levels[i]? = some l ∧ x = levelPoint c i l)) := by
  cases d with
  | cont k idx ev =>
    simp only [cellPoint, Option.some.injEq] at h
    subst h
    exact ⟨rfl, Or.inl ⟨k, idx, ev, rfl, rfl⟩⟩
  | disc i =>
    simp only [cellPoint] at h
    obtain ⟨l, h1, h2⟩ := Option.map_eq_some_iff.mp h
    subst h2
    exact ⟨rfl, Or.inr ⟨i, l, rfl, h1, rfl⟩⟩

theorem perturb_ok {n : Nuc K} {m : Mesh K} {x y : MCPoint K} {s s' : List K}
    (h : perturb n m x s = .ok (y, s')) :
    (x.disc = true ∧ y = x) ∨ (x.disc = false ∧ ∃ top r, n.levels.getLast? = some top ∧ s = r :: s' ∧
      y = { x with e :=
        (let emax := if x.k = 0 then x.e else (m.exc (x.k - 1) + m.exc x.k) * (1 / 2)
         let emin := (m.exc (x.k + 1) + m.exc x.k) * (1 / 2)
         let emin := if emin < top.energy then top.energy else emin
         emin + (emax - emin) * r) }) := by
  unfold perturb at h
  split at h
  · rename_i hd
    obtain ⟨h1, -⟩ := Rnd.pure_ok.mp h
    exact Or.inl ⟨hd, h1.symm⟩
  · rename_i hd
    rw [Rnd.bind_ok] at h
    obtain ⟨top, s1, h1, h2⟩ := h
    obtain ⟨h3, rfl⟩ := Rnd.get_ok.mp h1
    rw [Rnd.bind_ok] at h2
    obtain ⟨r, s2, h4, h5⟩ := h2
    rw [Rnd.draw_ok] at h4
    obtain ⟨h6, rfl⟩ := Rnd.pure_ok.mp h5
    exact Or.inr ⟨by simpa using hd, top, r, h3, h4, h6.symm⟩

theorem perturb_keeps {n : Nuc K} {m : Mesh K} {x y : MCPoint K} {s s' : List K}
    (h : perturb n m x s = .ok (y, s')) : y.n = x.n ∧ y.disc = x.disc ∧ y.k = x.k ∧ y.j = x.j ∧
      (x.disc = true → y = x) := by
  rcases perturb_ok h with ⟨h1, rfl⟩ | ⟨h1, top, r, -, -, rfl⟩
  · exact ⟨rfl, rfl, rfl, rfl, fun _ => rfl⟩
  · exact ⟨rfl, rfl, rfl, rfl, fun h => by rw [h1] at h; cases h⟩

theorem lowCut_ok {par : Par K} {n0 : Nuc K} {mcurr x y : MCPoint K} {s s' : List K}
    (h : lowCut par n0 mcurr x s = .ok (y, s')) :
    y = x ∨ (mcurr.n = x.n ∧ ∃ i l, n0.levels[i]? = some l ∧ y = levelPoint mcurr.n i l) := by
  unfold lowCut at h
  split at h
  · rename_i hn
    rw [Rnd.bind_ok] at h
    obtain ⟨top, s1, h1, h2⟩ := h
    split at h2
    · rw [Rnd.bind_ok] at h2
      obtain ⟨i, s2, h3, h4⟩ := h2
      obtain ⟨-, l, h5, h6⟩ := get_level_ok h4
      exact Or.inr ⟨hn, i, l, h5, h6⟩
    · exact Or.inl (Rnd.pure_ok.mp h2).1.symm
  · exact Or.inl (Rnd.pure_ok.mp h).1.symm

/-- A point that is a discrete level of the chain. -/
def IsLevel (chain : List (Nuc K)) (x : MCPoint K) : Prop :=
  ∃ n l, chain[x.n]? = some n ∧ n.levels[x.k]? = some l ∧ x = levelPoint x.n x.k l

/-- The intermediate results of one pass of the loop. -/
theorem contStep_ok {par : Par K} {st st' : St K} {m x : MCPoint K} {s s' : List K}
    (h : contStep par st m s = .ok ((st', x), s')) :
    ∃ n0 m0 d pops x1 x2 jm s1 s2 s3 s4 s5, par.chain[m.n]? = some n0 ∧
      setup par.w par.nbin (elmax n0.levels) m.e = .ok m0 ∧
      daughter par n0 m0 m.e s = .ok (d, s1) ∧ 0 ≤ m.j ∧ m.j < par.maxJ ∧
      compoundDecay par.maxJ par.w n0 d.1 m0 d.2 (par.phys m.n m.e) m.p m.j (st.jmax m.n)
        (st.jmax n0.next) s1 = .ok (pops, s2) ∧
      findNext m.n n0 d.1 m0 d.2 pops m.p m.j s2 = .ok (x1, s3) ∧
      perturb (side m x1 (n0, m0) d).1 (side m x1 (n0, m0) d).2 x1 s3 = .ok (x2, s4) ∧
      lowCut par n0 m x2 s4 = .ok (x, s5) ∧
      jm = (fun c => if c = m.n then pops.jmax0
        else if n0.status ∧ c = n0.next then pops.jmax1 else st.jmax c) ∧
      store par false m x { st with jmax := jm } s5 = .ok (st', s') := by
  unfold contStep at h
  rw [Rnd.bind_ok] at h
  obtain ⟨n0, s0, h1', h⟩ := h
  obtain ⟨h1, rfl⟩ := Rnd.get_ok.mp h1'
  clear h1'
  rw [Rnd.bind_ok] at h
  obtain ⟨m0, s0', h2', h⟩ := h
  obtain ⟨h2, rfl⟩ := Rnd.lift_ok.mp h2'
  clear h2'
  rw [Rnd.bind_ok] at h
  obtain ⟨d, s1, h3, h⟩ := h
  split at h
  · simp at h
  · rename_i hj
    rw [Rnd.bind_ok] at h
    obtain ⟨pops, s2, h4, h⟩ := h
    rw [Rnd.bind_ok] at h
    obtain ⟨x1, s3, h5, h⟩ := h
    rw [Rnd.bind_ok] at h
    obtain ⟨x2, s4, h6, h⟩ := h
    rw [Rnd.bind_ok] at h
    obtain ⟨x3, s5, h7, h⟩ := h
    rw [Rnd.bind_ok] at h
    obtain ⟨st1, s6, h8, h⟩ := h
    obtain ⟨h9, rfl⟩ := Rnd.pure_ok.mp h
    cases h9
    exact ⟨n0, m0, d, pops, x1, x2, _, s1, s2, s3, s4, s5, h1, h2, h3, by omega, by omega, h4, h5, h6,
      h7, rfl, h8⟩

theorem daughter_ok {par : Par K} {n0 : Nuc K} {m0 : Mesh K} {e : K} {d : Nuc K × Mesh K}
    {s s' : List K} (h : daughter par n0 m0 e s = .ok (d, s')) : s' = s ∧
    ((n0.status = true ∧ par.chain[n0.next]? = some d.1 ∧
      setup par.w par.nbin (elmax d.1.levels) (e - n0.sn) = .ok d.2) ∨
     (n0.status = false ∧ d = (n0, m0))) := by
  unfold daughter at h
  split at h
  · rename_i hs
    rw [Rnd.bind_ok] at h
    obtain ⟨n1, s1, h1', h⟩ := h
    obtain ⟨h1, rfl⟩ := Rnd.get_ok.mp h1'
    rw [Rnd.bind_ok] at h
    obtain ⟨m1, s2, h2', h⟩ := h
    obtain ⟨h2, rfl⟩ := Rnd.lift_ok.mp h2'
    obtain ⟨h3, rfl⟩ := Rnd.pure_ok.mp h
    subst h3
    exact ⟨rfl, Or.inl ⟨hs, h1, h2⟩⟩
  · rename_i hs
    obtain ⟨h3, rfl⟩ := Rnd.pure_ok.mp h
    exact ⟨rfl, Or.inr ⟨by simpa using hs, h3.symm⟩⟩

/-- Nucleus of the next state and, when discrete, that it is a level. -/
theorem contStep_next {par : Par K} (hch : ChainNext par.chain) {st st' : St K} {m x : MCPoint K}
    {s s' : List K} (h : contStep par st m s = .ok ((st', x), s')) :
    (x.n = m.n ∨ x.n = m.n + 1) ∧ (x.disc = true → IsLevel par.chain x) := by
  obtain ⟨n0, m0, d, pops, x1, x2, jm, s1, s2, s3, s4, s5, h1, h2, h3, -, -, h4, h5, h6, h7, -, h8⟩ :=
    contStep_ok h
  obtain ⟨-, hd⟩ := daughter_ok h3
  have hx1 : (x1.n = m.n ∨ x1.n = m.n + 1) ∧ (x1.disc = true → IsLevel par.chain x1) := by
    rcases findNext_ok h5 with ⟨c, -, hc⟩ | ⟨c, r, l1, l2, hs, -, -, -, -, hc⟩ | ⟨i, l, hl, rfl⟩
    · obtain ⟨hn, hh⟩ := cellPoint_cases hc
      refine ⟨Or.inl hn, ?_⟩
      rcases hh with ⟨k, idx, ev, -, rfl⟩ | ⟨i, l, -, hl, rfl⟩
      · intro h; cases h
      · intro _; exact ⟨n0, l, h1, hl, rfl⟩
    · obtain ⟨hn, hh⟩ := cellPoint_cases hc
      have hnx := hch m.n n0 h1 hs
      refine ⟨Or.inr (by rw [hn, hnx]), ?_⟩
      rcases hd with ⟨-, hd1, hd2⟩ | ⟨hf, -⟩
      · rcases hh with ⟨k, idx, ev, -, rfl⟩ | ⟨i, l, -, hl, rfl⟩
        · intro h; cases h
        · intro _; exact ⟨d.1, l, hd1, hl, rfl⟩
      · rw [hf] at hs; cases hs
    · exact ⟨Or.inl rfl, fun _ => ⟨n0, l, h1, hl, rfl⟩⟩
  obtain ⟨p1, p2, p3, -, p4⟩ := perturb_keeps h6
  have hx2 : (x2.n = m.n ∨ x2.n = m.n + 1) ∧ (x2.disc = true → IsLevel par.chain x2) := by
    refine ⟨by rw [p1]; exact hx1.1, ?_⟩
    intro hdisc
    rw [p2] at hdisc
    rw [p4 hdisc]
    exact hx1.2 hdisc
  rcases lowCut_ok h7 with rfl | ⟨-, i, l, hl, rfl⟩
  · exact hx2
  · exact ⟨Or.inl rfl, fun _ => ⟨n0, l, h1, hl, rfl⟩⟩

theorem contStep_path {par : Par K} (hch : ChainNext par.chain) {st st' : St K} {m x a : MCPoint K}
    {s s' : List K} (h : contStep par st m s = .ok ((st', x), s'))
    (hp : Path (snOf par.chain) a st.hs m) : Path (snOf par.chain) a st'.hs x := by
  have hn := (contStep_next hch h).1
  obtain ⟨n0, m0, d, pops, x1, x2, jm, s1, s2, s3, s4, s5, h1, h2, h3, -, -, h4, h5, h6, h7, -, h8⟩ :=
    contStep_ok h
  exact store_path h8 hp hn

/-- Induction principle for the continuum loop. -/
theorem contLoop_ind {par : Par K} (I : St K → MCPoint K → List K → Prop) :
    (∀ st m s st' x s', I st m s → contStep par st m s = .ok ((st', x), s') → I st' x s') →
    ∀ fuel st m s st' x s', I st m s → contLoop par fuel st m s = .ok ((st', x), s') →
      I st' x s' ∧ x.disc = true := by
  intro hstep fuel
  induction fuel with
  | zero => intro st m s st' x s' _ h; simp [contLoop] at h
  | succ f ih =>
    intro st m s st' x s' hi h
    rw [contLoop, Rnd.bind_ok] at h
    obtain ⟨r, s1, h1, h2⟩ := h
    obtain ⟨st1, x1⟩ := r
    have hi1 := hstep _ _ _ _ _ _ hi h1
    simp only at h2
    split at h2
    · rename_i hd
      obtain ⟨h3, rfl⟩ := Rnd.pure_ok.mp h2
      cases h3
      exact ⟨hi1, hd⟩
    · exact ih _ _ _ _ _ _ hi1 h2

/-! ## Discrete cascade -/

theorem stay_ok {par : Par K} {l : Level K} {t t' : K} {s s' : List K}
    (h : stay par l t s = .ok (t', s')) :
    (0 < l.halflife ∧ ∃ r, s = r :: s' ∧ t' = t + par.delay r * l.halflife) ∨
    (¬ 0 < l.halflife ∧ s' = s ∧ t' = t) := by
  unfold stay at h
  split at h
  · rename_i hh
    rw [Rnd.bind_ok] at h
    obtain ⟨r, s1, h1, h2⟩ := h
    rw [Rnd.draw_ok] at h1
    obtain ⟨h3, rfl⟩ := Rnd.pure_ok.mp h2
    exact Or.inl ⟨hh, r, h1, h3.symm⟩
  · rename_i hh
    obtain ⟨h3, rfl⟩ := Rnd.pure_ok.mp h
    exact Or.inr ⟨hh, rfl, h3.symm⟩

/-- Induction principle for the discrete cascade: an invariant of level, clock, state and remaining
random numbers kept by a pass without branch and by a pass with a branch holds at the end, with the
level either the ground state or held back by the window. -/
theorem cascadeLoop_ind {par : Par K} {c0 : Nat} {levels : List (Level K)}
    (I : Nat → K → St K → List K → Prop)
    (hnone : ∀ i t st s l t' r s1 s2, I i t st s → i ≠ 0 → levels[i]? = some l →
      stay par l t s = .ok (t', s1) → ¬ (0 < par.window ∧ par.window < t') → s1 = r :: s2 →
      pickBranch r l.branches = none → I i t' st s2)
    (hsome : ∀ i t st s l t' r x s1 s2 b l1 ts st', I i t st s → i ≠ 0 → levels[i]? = some l →
      stay par l t s = .ok (t', s1) → ¬ (0 < par.window ∧ par.window < t') → s1 = r :: x :: s2 →
      pickBranch r l.branches = some b → writeAt st.ts st.hs.length t' = .ok ts →
      levels[b.fstate]? = some l1 →
      store par (decide (b.gratio < x)) (levelPoint c0 i l) (levelPoint c0 b.fstate l1)
        { st with ts := ts } s2 = .ok (st', s2) → I b.fstate t' st' s2) :
    ∀ fuel i t st s i' st' s', I i t st s →
      cascadeLoop par c0 levels fuel i t st s = .ok ((i', st'), s') →
      ∃ t1 s1, I i' t1 st' s1 ∧ (i' = 0 ∨ ∃ l t2 s2, levels[i']? = some l ∧
        stay par l t1 s1 = .ok (t2, s2) ∧ 0 < par.window ∧ par.window < t2) := by
  intro fuel
  induction fuel with
  | zero => intro i t st s i' st' s' _ h; simp [cascadeLoop] at h
  | succ f ih =>
    intro i t st s i' st' s' hi h
    rw [cascadeLoop] at h
    split at h
    · rename_i h0
      obtain ⟨h1, rfl⟩ := Rnd.pure_ok.mp h
      cases h1
      subst h0
      exact ⟨t, s, hi, Or.inl rfl⟩
    · rename_i h0
      rw [Rnd.bind_ok] at h
      obtain ⟨l, s0, h1', h⟩ := h
      obtain ⟨h1, rfl⟩ := Rnd.get_ok.mp h1'
      rw [Rnd.bind_ok] at h
      obtain ⟨t', s1, h2, h⟩ := h
      split at h
      · rename_i hw
        obtain ⟨h3, rfl⟩ := Rnd.pure_ok.mp h
        cases h3
        exact ⟨t, _, hi, Or.inr ⟨l, t', _, h1, h2, hw.1, hw.2⟩⟩
      · rename_i hw
        rw [Rnd.bind_ok] at h
        obtain ⟨r, s2, h3, h⟩ := h
        rw [Rnd.draw_ok] at h3
        generalize hb : pickBranch r l.branches = o at h
        cases o with
        | none =>
          exact ih _ _ _ _ _ _ _ (hnone _ _ _ _ _ _ _ _ _ hi h0 h1 h2 hw h3 hb) h
        | some b =>
          replace h := Rnd.bind_ok.mp h
          obtain ⟨x, s3, h4, h⟩ := h
          rw [Rnd.draw_ok] at h4
          rw [Rnd.bind_ok] at h
          obtain ⟨ts, s4, h5', h⟩ := h
          obtain ⟨h5, rfl⟩ := Rnd.lift_ok.mp h5'
          rw [Rnd.bind_ok] at h
          obtain ⟨l1, s5, h6', h⟩ := h
          obtain ⟨h6, rfl⟩ := Rnd.get_ok.mp h6'
          rw [Rnd.bind_ok] at h
          obtain ⟨st1, s6, h7, h⟩ := h
          have e := (store_ok h7).1
          subst e
          exact ih _ _ _ _ _ _ _
            (hsome _ _ _ _ _ _ _ _ _ _ _ _ _ _ hi h0 h1 h2 hw (by rw [h3, h4]) hb h5 h6 h7) h

end CGMF.MC
