import Verif.Proofs.Energy

/-! # Absence of undefined behaviour in the decay -/

set_option linter.unusedSectionVars false

namespace CGMF.MC

open CGMF.Grid CGMF.HF

variable {K : Type} [Field K] [LinearOrder K] [IsStrictOrderedRing K]

/-- `x` is never undefined and its results satisfy `P`. -/
def Safe {α : Type} (x : Rnd K α) (P : α → Prop) : Prop :=
  ∀ s : List K, x s ≠ .ub ∧ ∀ a s', x s = .ok (a, s') → P a

theorem Safe.pure {α : Type} {a : α} {P : α → Prop} (h : P a) : Safe (pure a : Rnd K α) P := by
  intro s
  refine ⟨by simp, ?_⟩
  intro b s' e
  obtain ⟨rfl, -⟩ := Rnd.pure_ok.mp e
  exact h

theorem Safe.stop {α : Type} {P : α → Prop} : Safe (Rnd.stop : Rnd K α) P := by intro s; simp

theorem Safe.get {α : Type} {o : Option α} {P : α → Prop} (h : ∃ a, o = some a ∧ P a) :
    Safe (Rnd.get o : Rnd K α) P := by
  obtain ⟨a, rfl, ha⟩ := h
  intro s
  refine ⟨by simp [Rnd.get], ?_⟩
  intro b s' e
  cases (Rnd.get_ok.mp e).1
  exact ha

theorem Safe.lift {α : Type} {o : Res α} {P : α → Prop} (h : o ≠ .ub) (hp : ∀ a, o = .ok a → P a) :
    Safe (Rnd.lift o : Rnd K α) P := by
  intro s
  refine ⟨by cases o <;> simp_all [Rnd.lift], ?_⟩
  intro b s' e
  exact hp b (Rnd.lift_ok.mp e).1

theorem Safe.draw {P : K → Prop} (h : ∀ r, P r) : Safe (Rnd.draw : Rnd K K) P := by
  intro s
  refine ⟨by cases s <;> simp [Rnd.draw], fun a _ _ => h a⟩

theorem Safe.bind {α β : Type} {x : Rnd K α} {f : α → Rnd K β} {P : α → Prop} {Q : β → Prop}
    (hx : Safe x P) (hf : ∀ a, P a → Safe (f a) Q) : Safe (x >>= f) Q := by
  intro s
  constructor
  · rw [Rnd.bind_run]
    cases h : x s with
    | ok p =>
      obtain ⟨a, s1⟩ := p
      exact (hf a ((hx s).2 a s1 h) s1).1
    | ub => exact absurd h (hx s).1
    | _ => simp
  · intro b s' h
    obtain ⟨a, s1, h1, h2⟩ := Rnd.bind_ok.mp h
    exact (hf a ((hx s).2 a s1 h1) s1).2 b s' h2

theorem Safe.mono {α : Type} {x : Rnd K α} {P Q : α → Prop} (h : Safe x P) (hpq : ∀ a, P a → Q a) :
    Safe x Q := fun s => ⟨(h s).1, fun a s' e => hpq a ((h s).2 a s' e)⟩

theorem Safe.and_post {α : Type} {x : Rnd K α} {P Q : α → Prop} (h : Safe x P)
    (hq : ∀ s a s', x s = .ok (a, s') → Q a) : Safe x (fun a => P a ∧ Q a) :=
  fun s => ⟨(h s).1, fun a s' e => ⟨(h s).2 a s' e, hq s a s' e⟩⟩

theorem Safe.ite {α : Type} {c : Prop} [Decidable c] {x y : Rnd K α} {P : α → Prop}
    (hx : c → Safe x P) (hy : ¬ c → Safe y P) : Safe (if c then x else y) P := by
  by_cases h : c
  · rw [if_pos h]; exact hx h
  · rw [if_neg h]; exact hy h

/-! ## Forced transitions -/

theorem pickE1_safe (p j : Int) : ∀ (ls : List (Level K)) (i : Nat) (xpr : K) (best : Option Nat),
    Safe (pickE1 p j ls i xpr best) (fun _ => True) := by
  intro ls
  induction ls with
  | nil => intro i x b; exact Safe.pure trivial
  | cons l ls ih =>
    intro i x b
    rw [pickE1]
    refine Safe.ite (fun _ => ?_) (fun _ => ih _ _ _)
    refine (Safe.draw (P := fun _ => True) (fun _ => trivial)).bind ?_
    intro r _
    exact Safe.ite (fun _ => ih _ _ _) (fun _ => ih _ _ _)

theorem closest_best {j : Int} : ∀ (ls : List (Level K)) (i : Nat) (d : Int) (b : Nat),
    ∃ b', closest j ls i d (some b) = some b' := by
  intro ls
  induction ls with
  | nil => intro i d b; exact ⟨b, rfl⟩
  | cons l ls ih =>
    intro i d b
    rw [closest]
    split <;> exact ih _ _ _

theorem closestLast_best {j : Int} : ∀ (ls : List (Level K)) (i : Nat) (d : Int) (b : Nat),
    ∃ b', closestLast j ls i d (some b) = some b' := by
  intro ls
  induction ls with
  | nil => intro i d b; exact ⟨b, rfl⟩
  | cons l ls ih =>
    intro i d b
    rw [closestLast]
    split <;> exact ih _ _ _

theorem forced_safe {ls : List (Level K)} (p j : Int) (h : ∃ l, ls.head? = some l ∧ |l.spin2 - 2 * j| < 200) :
    Safe (forced ls p j) (fun i => i < ls.length) := by
  have hsafe : Safe (forced ls p j) (fun _ => True) := by
    unfold forced
    refine (pickE1_safe p j ls 0 (-1) none).bind ?_
    intro b _
    cases b with
    | some i => exact Safe.pure trivial
    | none =>
      refine Safe.get ?_
      obtain ⟨l, hl, hd⟩ := h
      cases ls with
      | nil => cases hl
      | cons l' ls =>
        cases hl
        rw [closest, if_pos hd]
        obtain ⟨b, hb⟩ := closest_best (j := j) ls 1 |l.spin2 - 2 * j| 0
        exact ⟨b, hb, trivial⟩
  refine (hsafe.and_post (Q := fun i => i < ls.length) ?_).mono (fun _ h => h.2)
  intro s i s' h
  unfold forced at h
  rw [Rnd.bind_ok] at h
  obtain ⟨b, s1, h1, h2⟩ := h
  cases b with
  | some i' =>
    obtain ⟨rfl, -⟩ := Rnd.pure_ok.mp h2
    rcases pickE1_ok h1 with h3 | ⟨k, l, h3, h4, -⟩
    · cases h3
    · simp only [Option.some.injEq, Nat.zero_add] at h3
      rw [h3]
      exact (List.getElem?_eq_some_iff.mp h4).1
  | none =>
    have h3 := (Rnd.get_ok.mp h2).1
    rcases closest_some h3 with h4 | ⟨k, l, h4, h5⟩
    · cases h4
    · rw [Nat.zero_add] at h4
      rw [h4]
      exact (List.getElem?_eq_some_iff.mp h5).1

theorem bypass_safe {ls : List (Level K)} (p j : Int) (h : ∃ l, ls.head? = some l ∧ |l.spin2 - 2 * j| < 200) :
    Safe (bypass ls p j) (fun i => i < ls.length) := by
  have hsafe : Safe (bypass ls p j) (fun _ => True) := by
    unfold bypass
    refine (pickE1_safe p j ls 0 (-1) none).bind ?_
    intro b _
    cases b with
    | some i => exact Safe.pure trivial
    | none =>
      refine Safe.get ?_
      obtain ⟨l, hl, hd⟩ := h
      cases ls with
      | nil => cases hl
      | cons l' ls =>
        cases hl
        rw [closestLast, if_pos (by omega)]
        obtain ⟨b, hb⟩ := closestLast_best (j := j) ls 1 |l.spin2 - 2 * j| 0
        exact ⟨b, hb, trivial⟩
  exact (hsafe.and_post (Q := fun i => i < ls.length) (fun s i s' h => bypass_lt h)).mono (fun _ h => h.2)

/-! ## The loop -/

/-- What the tables must satisfy: every nucleus has its ground state with a moderate spin, open neutron
channels lead inside the chain, branches inside the level list. -/
structure ChainSafe (par : Par K) : Prop where
  maxJ_pos : 0 < par.maxJ
  maxJ_le : par.maxJ ≤ 50
  cap_pos : 0 < par.cap
  ground : ∀ n ∈ par.chain, ∃ l, n.levels.head? = some l ∧ -2 ≤ l.spin2 ∧ l.spin2 ≤ 100
  next : ∀ n ∈ par.chain, n.status = true → n.next < par.chain.length
  branch : ∀ n ∈ par.chain, ∀ l ∈ n.levels, ∀ b ∈ l.branches, b.fstate < n.levels.length

/-- Invariant of the loop state. -/
structure Inv (par : Par K) (st : St K) (x : MCPoint K) : Prop where
  len : st.hs.length < par.cap
  jm : ∀ c, c < par.chain.length → st.jmax c ≤ (par.maxJ : Int) - 1
  nuc : x.n < par.chain.length
  j0 : 0 ≤ x.j
  j1 : x.j < (par.maxJ : Int)
  lev : x.disc = true → ∀ n, par.chain[x.n]? = some n → x.k < n.levels.length

theorem store_safe {par : Par K} {ic : Bool} {m0 m1 : MCPoint K} {st : St K}
    (hl : st.hs.length < par.cap) (hn : m0.n < par.chain.length) :
    Safe (store par ic m0 m1 st) (fun st' => st'.hs.length < par.cap ∧ st'.jmax = st.jmax ∧ st'.ts = st.ts) := by
  have : Safe (store par ic m0 m1 st) (fun _ => True) := by
    unfold store
    refine Safe.ite (fun h => by omega) (fun _ => ?_)
    refine (Safe.get (P := fun _ => True) ⟨par.chain[m0.n], by simp [hn], trivial⟩).bind ?_
    intro n _
    exact Safe.ite (fun _ => Safe.stop) (fun _ => Safe.pure trivial)
  refine (this.and_post (Q := fun st' => st'.hs.length < par.cap ∧ st'.jmax = st.jmax ∧ st'.ts = st.ts) ?_).mono
    (fun _ h => h.2)
  intro s a s' h
  obtain ⟨-, h1, n0, -, rfl⟩ := store_ok h
  simpa using h1

theorem cellPoint_safe {c c' : Nat} {n : Nuc K} {m : Mesh K} {d : Cell} {k0 : Nat} {jm : Int}
    (h : d ∈ cells k0 m.ncont jm n.levels.length) :
    ∃ x, cellPoint c n m d = some x ∧ x.n = c ∧ 0 ≤ x.j ∧ x.j ≤ max jm 0 ∧
      (x.disc = true → x.k < n.levels.length) := by
  rw [mem_cells] at h
  cases d with
  | cont k idx ev =>
    refine ⟨_, rfl, rfl, h.2.2.1, ?_, fun h => by cases h⟩
    exact h.2.2.2.trans (le_max_left _ _)
  | disc i =>
    have hi : n.levels[i]? = some n.levels[i] := by simp [h]
    refine ⟨levelPoint c i n.levels[i], ?_, rfl, le_rfl, le_max_right _ _, fun _ => h⟩
    simp only [cellPoint, hi, Option.map_some]

theorem level_get_safe {c i : Nat} {levels : List (Level K)} (h : i < levels.length) {P : MCPoint K → Prop}
    (hP : P (levelPoint c i levels[i])) : Safe (Rnd.get (levels[i]?.map (levelPoint c i)) : Rnd K (MCPoint K)) P :=
  Safe.get ⟨_, by simp [h], hP⟩

theorem findNext_safe {par : Par K} {c0 : Nat} {n0 n1 : Nuc K} {m0 m1 : Mesh K} {pops : Pops K} {p j : Int}
    (hJ : 0 < par.maxJ)
    (hg : ∃ l, n0.levels.head? = some l ∧ |l.spin2 - 2 * j| < 200)
    (hj0 : pops.jmax0 ≤ (par.maxJ : Int) - 1) (hj1 : n0.status = true → pops.jmax1 ≤ (par.maxJ : Int) - 1) :
    Safe (findNext c0 n0 n1 m0 m1 pops p j) (fun x => 0 ≤ x.j ∧ x.j < (par.maxJ : Int) ∧
      ((x.n = c0 ∧ (x.disc = true → x.k < n0.levels.length)) ∨
       (n0.status = true ∧ x.n = n0.next ∧ (x.disc = true → x.k < n1.levels.length)))) := by
  unfold findNext
  refine (Safe.draw (P := fun _ => True) (fun _ => trivial)).bind ?_
  intro r _
  generalize hc : firstReach r 0 (candidates n0 n1 m0 m1 pops) = o
  rcases o with _ | ⟨_ | _, c⟩
  · refine (forced_safe p j hg).bind ?_
    intro i hi
    exact level_get_safe hi ⟨le_rfl, by simp [levelPoint]; omega, Or.inl ⟨rfl, fun _ => hi⟩⟩
  · obtain ⟨y, hy⟩ := firstReach_mem hc
    unfold candidates at hy
    have : c ∈ cells 1 m0.ncont pops.jmax0 n0.levels.length := by
      rcases List.mem_append.mp hy with hy | hy
      · obtain ⟨c', h4, h5⟩ := List.mem_map.mp hy
        cases h5; exact h4
      · split at hy
        · obtain ⟨c', h4, h5⟩ := List.mem_map.mp hy
          cases h5
        · cases hy
    obtain ⟨x, h1, h2, h3, h4, h5⟩ := cellPoint_safe (c := c0) (c' := 0) (n := n0) (m := m0) this
    exact Safe.get ⟨x, h1, h3, by omega, Or.inl ⟨h2, h5⟩⟩
  · obtain ⟨y, hy⟩ := firstReach_mem hc
    unfold candidates at hy
    have : n0.status = true ∧ c ∈ cells 0 m1.ncont pops.jmax1 n1.levels.length := by
      rcases List.mem_append.mp hy with hy | hy
      · obtain ⟨c', h4, h5⟩ := List.mem_map.mp hy
        cases h5
      · split at hy
        · rename_i hs
          obtain ⟨c', h4, h5⟩ := List.mem_map.mp hy
          cases h5; exact ⟨hs, h4⟩
        · cases hy
    obtain ⟨hs, hm⟩ := this
    obtain ⟨x, h1, h2, h3, h4, h5⟩ := cellPoint_safe (c := n0.next) (c' := 0) (n := n1) (m := m1) hm
    have := hj1 hs
    exact Safe.get ⟨x, h1, h3, by omega, Or.inr ⟨hs, h2, h5⟩⟩

theorem getLast_some {ls : List (Level K)} {l : Level K} (h : ls.head? = some l) :
    ∃ t, ls.getLast? = some t := by
  cases ls with
  | nil => cases h
  | cons a ls => exact ⟨_, List.getLast?_eq_getLast_of_ne_nil (by simp)⟩

theorem perturb_safe {n : Nuc K} {m : Mesh K} {x : MCPoint K} {l : Level K} (h : n.levels.head? = some l) :
    Safe (perturb n m x) (fun y => y.n = x.n ∧ y.disc = x.disc ∧ y.k = x.k ∧ y.j = x.j) := by
  have : Safe (perturb n m x) (fun _ => True) := by
    unfold perturb
    refine Safe.ite (fun _ => Safe.pure trivial) (fun _ => ?_)
    obtain ⟨t, ht⟩ := getLast_some h
    refine (Safe.get (P := fun _ => True) ⟨t, ht, trivial⟩).bind ?_
    intro top _
    refine (Safe.draw (P := fun _ => True) (fun _ => trivial)).bind ?_
    intro r _
    exact Safe.pure trivial
  refine (this.and_post ?_).mono (fun _ h => h.2)
  intro s y s' h
  have := perturb_keeps h
  exact ⟨this.1, this.2.1, this.2.2.1, this.2.2.2.1⟩

theorem contStep_safe {par : Par K} (hs : ChainSafe par) {st : St K} {m : MCPoint K} (hi : Inv par st m) :
    Safe (contStep par st m) (fun r => Inv par r.1 r.2 ∧ r.1.ts = st.ts) := by
  unfold contStep
  have hnn := hi.nuc
  refine (Safe.get (P := fun n => par.chain[m.n]? = some n) ⟨par.chain[m.n], by simp [hnn], by simp [hnn]⟩).bind ?_
  intro n0 hn0
  have hmem := List.mem_of_getElem? hn0
  obtain ⟨g0, hg0, hs0, hs1⟩ := hs.ground n0 hmem
  have hspin : |g0.spin2 - 2 * m.j| < 200 := by
    have a := hi.j0
    have b := hi.j1
    have c := hs.maxJ_le
    rw [abs_lt]; omega
  have hground : ∃ l, n0.levels.head? = some l ∧ |l.spin2 - 2 * m.j| < 200 := ⟨g0, hg0, hspin⟩
  refine (Safe.lift (P := fun _ => True) setup_not_ub (fun _ _ => trivial)).bind ?_
  intro m0 _
  have hdau : Safe (daughter par n0 m0 m.e) (fun d => (n0.status = true → par.chain[n0.next]? = some d.1) ∧
      ∃ l, d.1.levels.head? = some l) := by
    unfold daughter
    refine Safe.ite (fun hst => ?_) (fun hst => ?_)
    · have hnx := hs.next n0 hmem hst
      refine (Safe.get (P := fun n => par.chain[n0.next]? = some n) ⟨par.chain[n0.next], by simp [hnx], by simp [hnx]⟩).bind ?_
      intro n1 hn1
      refine (Safe.lift (P := fun _ => True) setup_not_ub (fun _ _ => trivial)).bind ?_
      intro m1 _
      obtain ⟨l, hl, -⟩ := hs.ground n1 (List.mem_of_getElem? hn1)
      exact Safe.pure ⟨fun _ => hn1, l, hl⟩
    · exact Safe.pure ⟨fun h => absurd h hst, g0, hg0⟩
  refine hdau.bind ?_
  rintro d ⟨hd, gl, hgl⟩
  have j0 := hi.j0
  have j1 := hi.j1
  refine Safe.ite (fun h => by omega) (fun _ => ?_)
  have hcd : Safe (compoundDecay par.maxJ par.w n0 d.1 m0 d.2 (par.phys m.n m.e) m.p m.j (st.jmax m.n)
      (st.jmax n0.next)) (fun pops => pops.jmax0 ≤ (par.maxJ : Int) - 1 ∧
        (n0.status = true → pops.jmax1 ≤ (par.maxJ : Int) - 1)) := by
    have : Safe (compoundDecay par.maxJ par.w n0 d.1 m0 d.2 (par.phys m.n m.e) m.p m.j (st.jmax m.n)
      (st.jmax n0.next)) (fun _ => True) := by
      unfold compoundDecay
      refine Safe.ite (fun _ => ?_) (fun _ => Safe.pure trivial)
      exact (bypass_safe m.p m.j hground).bind (fun _ _ => Safe.pure trivial)
    refine (this.and_post ?_).mono (fun _ h => h.2)
    intro s pops s' h
    obtain ⟨nt, -, h1, h2, -⟩ := compoundDecay_ok h
    refine ⟨?_, ?_⟩
    · rw [h1]
      refine jmax0After_le hs.maxJ_pos _ ?_ (hi.jm _ hnn)
      have := i0_cases n0
      omega
    · intro hst
      rw [h2]
      have hb := hi.jm n0.next (hs.next n0 hmem hst)
      split
      · exact jmax1After_le _ _ hb (fun lm _ => jtopHalf_le hs.maxJ_pos _ _)
      · exact hb
  refine hcd.bind ?_
  rintro pops ⟨hp0, hp1⟩
  refine (findNext_safe hs.maxJ_pos hground hp0 hp1).bind ?_
  rintro x ⟨x1, x2, x3⟩
  have hx : x.n < par.chain.length ∧ (x.disc = true → ∀ n, par.chain[x.n]? = some n → x.k < n.levels.length) := by
    rcases x3 with ⟨a, b⟩ | ⟨a, b, c⟩
    · rw [a]
      refine ⟨hnn, fun hd' n hn => ?_⟩
      rw [hn0] at hn; cases hn; exact b hd'
    · rw [b]
      refine ⟨hs.next n0 hmem a, fun hd' n hn => ?_⟩
      rw [hd a] at hn; cases hn; exact c hd'
  have hside : ∃ l, (side m x (n0, m0) d).1.levels.head? = some l := by
    unfold side
    split
    · exact ⟨g0, hg0⟩
    · exact ⟨gl, hgl⟩
  obtain ⟨sl, hsl⟩ := hside
  refine (perturb_safe hsl).bind ?_
  rintro y ⟨y1, y2, y3, y4⟩
  have hlow : Safe (lowCut par n0 m y) (fun z => z.n < par.chain.length ∧ 0 ≤ z.j ∧ z.j < (par.maxJ : Int) ∧
      (z.disc = true → ∀ n, par.chain[z.n]? = some n → z.k < n.levels.length)) := by
    have hy : y.n < par.chain.length ∧ 0 ≤ y.j ∧ y.j < (par.maxJ : Int) ∧
      (y.disc = true → ∀ n, par.chain[y.n]? = some n → y.k < n.levels.length) := by
      rw [y1, y2, y3, y4]
      exact ⟨hx.1, x1, x2, hx.2⟩
    unfold lowCut
    refine Safe.ite (fun _ => ?_) (fun _ => Safe.pure hy)
    obtain ⟨t, ht⟩ := getLast_some hg0
    refine (Safe.get (P := fun _ => True) ⟨t, ht, trivial⟩).bind ?_
    intro top _
    refine Safe.ite (fun _ => ?_) (fun _ => Safe.pure hy)
    refine (forced_safe m.p m.j hground).bind ?_
    intro i hi'
    refine level_get_safe hi' ⟨hnn, le_rfl, ?_, ?_⟩
    · show (0 : Int) < par.maxJ
      have := hs.maxJ_pos; omega
    · intro _ n hn
      change par.chain[m.n]? = some n at hn
      rw [hn0] at hn; cases hn; exact hi'
  refine hlow.bind ?_
  rintro z ⟨z1, z2, z3, z4⟩
  refine (store_safe (by exact hi.len) hnn).bind ?_
  rintro st' ⟨t1, t2, t3⟩
  refine Safe.pure ⟨⟨t1, ?_, z1, z2, z3, z4⟩, t3⟩
  intro c hc
  rw [t2]
  show (if c = m.n then pops.jmax0 else if n0.status = true ∧ c = n0.next then pops.jmax1 else st.jmax c) ≤ _
  split
  · exact hp0
  · split
    · rename_i h
      exact hp1 h.1
    · exact hi.jm c hc

theorem contLoop_safe {par : Par K} (hs : ChainSafe par) : ∀ (f : Nat) {st : St K} {m : MCPoint K}, Inv par st m →
    Safe (contLoop par f st m) (fun r => Inv par r.1 r.2 ∧ r.2.disc = true ∧ r.1.ts = st.ts) := by
  intro f
  induction f with
  | zero => intro st m _ s; simp [contLoop]
  | succ f ih =>
    intro st m hi
    rw [contLoop]
    refine (contStep_safe hs hi).bind ?_
    rintro r ⟨hr, ht⟩
    refine Safe.ite (fun hd => Safe.pure ⟨hr, hd, ht⟩) (fun _ => ?_)
    exact (ih hr).mono (fun a h => ⟨h.1, h.2.1, h.2.2.trans ht⟩)

theorem cascadeLoop_safe {par : Par K} {c : Nat} {n : Nuc K}
    (hn : par.chain[c]? = some n) (hb : ∀ l ∈ n.levels, ∀ b ∈ l.branches, b.fstate < n.levels.length) :
    ∀ (f i : Nat) (t : K) (st : St K), i < n.levels.length → st.hs.length < par.cap →
      par.cap ≤ st.ts.length →
      Safe (cascadeLoop par c n.levels f i t st) (fun r => r.1 < n.levels.length ∧ r.2.hs.length < par.cap) := by
  intro f
  induction f with
  | zero => intro i t st _ _ _ s; simp [cascadeLoop]
  | succ f ih =>
    intro i t st hi hl ht
    rw [cascadeLoop]
    refine Safe.ite (fun h => Safe.pure ⟨by simp only; omega, hl⟩) (fun h0 => ?_)
    refine (Safe.get (P := fun l => n.levels[i]? = some l) ⟨n.levels[i], by simp [hi], by simp [hi]⟩).bind ?_
    intro l hl'
    have hstay : Safe (stay par l t) (fun _ => True) := by
      unfold stay
      refine Safe.ite (fun _ => ?_) (fun _ => Safe.pure trivial)
      exact (Safe.draw (P := fun _ => True) (fun _ => trivial)).bind (fun _ _ => Safe.pure trivial)
    refine hstay.bind ?_
    intro t' _
    refine Safe.ite (fun _ => Safe.pure ⟨hi, hl⟩) (fun _ => ?_)
    refine (Safe.draw (P := fun _ => True) (fun _ => trivial)).bind ?_
    intro r _
    cases hpb : pickBranch r l.branches with
    | none => exact ih _ _ _ hi hl ht
    | some b =>
      have hbm : b ∈ l.branches := by
        obtain ⟨y, hy⟩ := firstReach_mem hpb
        obtain ⟨b', hb', e⟩ := List.mem_map.mp hy
        cases e; exact hb'
      have hbf := hb l (List.mem_of_getElem? hl') b hbm
      refine (Safe.draw (P := fun _ => True) (fun _ => trivial)).bind ?_
      intro x _
      by_cases hroom : st.hs.length < st.ts.length
      · refine (Safe.lift (P := fun ts => ts.length = st.ts.length) (o := writeAt st.ts (st.hs.length : Int) t') ?_ ?_).bind ?_
        · unfold writeAt; rw [if_pos ⟨by omega, by simpa using hroom⟩]; simp
        · intro ts hts
          unfold writeAt at hts
          rw [if_pos ⟨by omega, by simpa using hroom⟩] at hts
          cases hts; simp
        · intro ts hts
          refine (Safe.get (P := fun l => n.levels[b.fstate]? = some l) ⟨n.levels[b.fstate], by simp [hbf], by simp [hbf]⟩).bind ?_
          intro l1 _
          refine (store_safe (by exact hl) (by exact (List.getElem?_eq_some_iff.mp hn).1)).bind ?_
          rintro st' ⟨q1, -, q3⟩
          refine ih _ _ _ hbf q1 ?_
          rw [q3]
          show par.cap ≤ ts.length
          omega
      · omega

theorem nearest_lt {E : K} : ∀ (ls : List (Level K)) (i : Nat) (d : K) (k : Nat),
    nearest E ls i d k = k ∨ (i ≤ nearest E ls i d k ∧ nearest E ls i d k < i + ls.length) := by
  intro ls
  induction ls with
  | nil => intro i d k; exact Or.inl rfl
  | cons l ls ih =>
    intro i d k
    rw [nearest]
    split
    · rcases ih (i + 1) |E - l.energy| i with h | h
      · right; rw [h]; simp
      · right; simp only [List.length_cons]; omega
    · rcases ih (i + 1) d k with h | h
      · left; exact h
      · right; simp only [List.length_cons]; omega

theorem startLevel_lt {n : Nuc K} {m : Mesh K} {E : K} (hm : m.ncont = 0) (hl : n.levels ≠ []) :
    startLevel n m E < n.levels.length := by
  unfold startLevel
  have hp := List.length_pos_of_ne_nil hl
  split
  · exact hp
  · rename_i h
    have h1 : n.levels.length ≠ 1 := fun e => h ⟨e, hm⟩
    rcases nearest_lt (E := E) n.levels.dropLast 0 100 0 with e | e
    · rw [e]; omega
    · rw [List.length_dropLast] at e; omega

theorem marker_safe {par : Par K} {c f : Nat} {st : St K} {n : Nuc K} (hn : par.chain[c]? = some n)
    (hf : f < n.levels.length) (hl : st.hs.length < par.cap) : Safe (marker par c f st) (fun _ => True) := by
  unfold marker
  refine (Safe.get (P := fun n' => n' = n) ⟨n, hn, rfl⟩).bind ?_
  rintro n' rfl
  refine (Safe.get (P := fun _ => True) ⟨n'.levels[f], by simp [hf], trivial⟩).bind ?_
  intro l _
  exact Safe.ite (fun h => by omega) (fun _ => Safe.pure trivial)

theorem cascade_safe {par : Par K} (hs : ChainSafe par) {c i : Nat} {n : Nuc K} {st : St K}
    (hn : par.chain[c]? = some n) (hi : i < n.levels.length) (hl : st.hs.length < par.cap)
    (ht : par.cap ≤ st.ts.length) :
    Safe (cascade par c i st) (fun r => r.1 < n.levels.length ∧ r.2.hs.length < par.cap) := by
  intro s
  unfold cascade
  rw [hn]
  exact cascadeLoop_safe hn (hs.branch n (List.mem_of_getElem? hn)) _ _ _ _ hi hl ht s

theorem fixedStart_range : ∀ (l : List (K × K)) (j : Nat) (p q : Int), fixedStart l j = some (p, q) →
    (j : Int) ≤ q ∧ q < j + l.length := by
  intro l
  induction l with
  | nil => intro j p q h; simp [fixedStart] at h
  | cons a l ih =>
    intro j p q h
    obtain ⟨ev, od⟩ := a
    rw [fixedStart] at h
    split at h
    · cases h; simp only [List.length_cons]; push_cast; omega
    · split at h
      · cases h; simp only [List.length_cons]; push_cast; omega
      · have := ih _ _ _ h
        simp only [List.length_cons]
        push_cast at this ⊢
        omega

/-- The decay never runs into undefined behaviour when the array of time stamps has room for the
longest history. -/
theorem decay_safe {par : Par K} (hs : ChainSafe par) {st : St K} (hc : par.chain ≠ [])
    (ht : par.cap ≤ st.ts.length) (hj : ∀ c, c < par.chain.length → st.jmax c ≤ (par.maxJ : Int) - 1)
    (E : K) (jint p0 : Int) : Safe (decay par st E jint p0) (fun _ => True) := by
  unfold decay
  have hlen := List.length_pos_of_ne_nil hc
  refine (Safe.get (P := fun n => par.chain[0]? = some n) ⟨par.chain[0], by simp [hlen], by simp [hlen]⟩).bind ?_
  intro n0 hn0
  obtain ⟨g0, hg0, -⟩ := hs.ground n0 (List.mem_of_getElem? hn0)
  have hne : n0.levels ≠ [] := by rintro e; rw [e] at hg0; cases hg0
  refine (Safe.lift (P := fun _ => True) setup_not_ub (fun _ _ => trivial)).bind ?_
  intro m0 _
  refine Safe.ite (fun hz => ?_) (fun hz => ?_)
  · unfold discStart
    refine (cascade_safe (st := { st with hs := [] }) hs hn0 (startLevel_lt hz hne) hs.cap_pos ht).bind ?_
    rintro r ⟨r1, r2⟩
    exact marker_safe hn0 r1 r2
  · unfold contStart
    cases hf : fixedStart (popSingle (K := K) par.maxJ jint p0) 0 with
    | none => exact Safe.stop
    | some pj =>
      obtain ⟨p, q⟩ := pj
      have hq := fixedStart_range _ _ _ _ hf
      have hlen2 : (popSingle (K := K) par.maxJ jint p0).length = par.maxJ := by simp [popSingle]
      rw [hlen2] at hq
      unfold historyLoop
      refine (contLoop_safe hs par.cap (st := _) (m := _) ?_).bind ?_
      · refine ⟨by simpa using hs.cap_pos, ?_, hlen, by simpa using hq.1, by simpa using hq.2, fun h => by cases h⟩
        intro c hc
        show (if c = 0 then (par.maxJ : Int) - 1 else st.jmax c) ≤ _
        split
        · exact le_rfl
        · exact hj c hc
      · rintro ⟨st1, x⟩ ⟨hi, hd, hts⟩
        have hx := hi.nuc
        have hxn : par.chain[x.n]? = some par.chain[x.n] := by simp [hx]
        have hk := hi.lev hd _ hxn
        have hfin : Safe (finish par x st1) (fun r => r.1 < par.chain[x.n].levels.length ∧ r.2.hs.length < par.cap) := by
          unfold finish
          refine Safe.ite (fun _ => ?_) (fun _ => ?_)
          · refine cascade_safe hs hxn hk hi.len ?_
            simp only at hts
            rw [hts]; exact ht
          · exact Safe.pure ⟨by simp only; omega, hi.len⟩
        refine hfin.bind ?_
        rintro r ⟨r1, r2⟩
        exact marker_safe hxn r1 r2

end CGMF.MC
