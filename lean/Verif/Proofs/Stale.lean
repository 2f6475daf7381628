import Verif.Proofs.HF
import Verif.Proofs.Chain
import Verif.Props.HF

/-!
# Decays started from different leftover states

Between two decays the program keeps the entries of the history array, the time stamps and the largest spin index of each
nucleus.  Two states agree when the history recorded so far and the time stamps that belong to it are the same.
-/

namespace CGMF.MC

open CGMF.HF CGMF.Grid

variable {K α β : Type}

/-- The same outcome up to `R`, with the same random numbers left. -/
def Alike (R : α → α → Prop) : Out (α × List K) → Out (α × List K) → Prop
  | .ok a, .ok b => R a.1 b.1 ∧ a.2 = b.2
  | .exit, .exit => True
  | .ub, .ub => True
  | .more, .more => True
  | _, _ => False

/-- The same outcome up to `R` for all random numbers. -/
def AlikeAll (R : α → α → Prop) (f g : Rnd K α) : Prop := ∀ s, Alike R (f s) (g s)

theorem AlikeAll.bind {R : α → α → Prop} {Q : β → β → Prop} {f g : Rnd K α} {k k' : α → Rnd K β} (h : AlikeAll R f g)
    (hk : ∀ a b, R a b → AlikeAll Q (k a) (k' b)) : AlikeAll Q (f >>= k) (g >>= k') := by
  intro s
  have h1 := h s
  rw [Rnd.bind_run, Rnd.bind_run]
  rcases hf : f s with ⟨a, t⟩ | _ | _ | _ <;> rcases hg : g s with ⟨b, t'⟩ | _ | _ | _ <;> rw [hf, hg] at h1 <;>
    first
    | exact h1.elim
    | trivial
    | skip
  obtain ⟨h2, h3⟩ := h1
  simp only at h2 h3
  subst h3
  exact hk a b h2 t

theorem AlikeAll.pure {R : α → α → Prop} {a b : α} (h : R a b) : AlikeAll (K := K) R (Pure.pure a) (Pure.pure b) := fun _ => ⟨h, rfl⟩

theorem AlikeAll.refl {R : α → α → Prop} (h : ∀ a, R a a) (f : Rnd K α) : AlikeAll R f f := by
  intro s
  cases f s with
  | ok a => exact ⟨h _, rfl⟩
  | exit => trivial
  | ub => trivial
  | more => trivial

/-- The same computation first; `P` holds for what it can return. -/
theorem AlikeAll.same' {Q : β → β → Prop} {P : α → Prop} {f : Rnd K α} (hf : ∀ s a t, f s = .ok (a, t) → P a) {k k' : α → Rnd K β}
    (hk : ∀ a, P a → AlikeAll Q (k a) (k' a)) : AlikeAll Q (f >>= k) (f >>= k') := by
  intro s
  rw [Rnd.bind_run, Rnd.bind_run]
  rcases hs : f s with ⟨a, t⟩ | _ | _ | _
  · exact hk a (hf s a t hs) t
  · trivial
  · trivial
  · trivial

/-- The same computation first. -/
theorem AlikeAll.same {Q : β → β → Prop} (f : Rnd K α) {k k' : α → Rnd K β} (hk : ∀ a, AlikeAll Q (k a) (k' a)) :
    AlikeAll Q (f >>= k) (f >>= k') :=
  (AlikeAll.refl (R := Eq) (fun _ => rfl) f).bind fun a b h => by subst h; exact hk a

/-! ## Zero entries in the selection -/

variable [Field K] [LinearOrder K] [IsStrictOrderedRing K]

theorem firstReach_filter (r : K) : ∀ (l : List (α × K)) (s : K), s < r → firstReach r s l = firstReach r s (l.filter fun x => x.2 ≠ 0) := by
  intro l
  induction l with
  | nil => intro s _; rfl
  | cons y l ih =>
    obtain ⟨a, x⟩ := y
    intro s hs
    rw [List.filter_cons]
    by_cases hx : x = 0
    · subst hx
      rw [if_neg (by simp), firstReach, add_zero, if_neg (not_le.mpr hs)]
      exact ih s hs
    · rw [if_pos (by simpa using hx), firstReach, firstReach]
      split
      · rfl
      · rename_i hc
        exact ih _ (not_le.mp hc)

/-- Two selections with the same first entry and the same entries different from zero. -/
theorem firstReach_alike (r : K) {y : α × K} {l l' : List (α × K)} (hy : 0 ≤ y.2)
    (h : (y :: l).filter (fun x => x.2 ≠ 0) = (y :: l').filter (fun x => x.2 ≠ 0)) :
    firstReach r 0 (y :: l) = firstReach r 0 (y :: l') := by
  by_cases hr : 0 < r
  · rw [firstReach_filter r _ 0 hr, firstReach_filter r (y :: l') 0 hr, h]
  · obtain ⟨a, x⟩ := y
    rw [firstReach, firstReach, if_pos (by simp only at hy; linarith), if_pos (by simp only at hy; linarith)]

/-! ## Spins beyond the largest one carry no population -/

theorem filter_range {f : Nat → Cell × Cell} {a b : Nat} (hab : a ≤ b) {v : Cell → K}
    (hz : ∀ j, a ≤ j → j < b → v (f j).1 = 0 ∧ v (f j).2 = 0) :
    ((List.range b).flatMap fun j => [(f j).1, (f j).2]).filter (fun c => v c ≠ 0) =
      ((List.range a).flatMap fun j => [(f j).1, (f j).2]).filter (fun c => v c ≠ 0) := by
  obtain ⟨d, rfl⟩ : ∃ d, b = a + d := ⟨b - a, by omega⟩
  rw [List.range_add, List.flatMap_append, List.filter_append]
  conv_rhs => rw [← List.append_nil (List.filter _ _)]
  congr 1
  rw [List.filter_eq_nil_iff]
  intro c hc
  obtain ⟨j, hj, hc⟩ := List.mem_flatMap.mp hc
  obtain ⟨i, hi, rfl⟩ := List.mem_map.mp hj
  have := hz (a + i) (by omega) (by have := List.mem_range.mp hi; omega)
  rcases List.mem_cons.mp hc with rfl | hc
  · simp [this.1]
  · rcases List.mem_cons.mp hc with rfl | hc
    · simp [this.2]
    · cases hc

/-- The cells with population are the same for two values of the largest spin, when those with population lie below both. -/
theorem filter_cells {k0 ncont ndisc : Nat} {j1 j2 : Int} {v : Cell → K}
    (h1 : ∀ c, v c ≠ 0 → c ∈ cells k0 ncont j1 ndisc) (h2 : ∀ c, v c ≠ 0 → c ∈ cells k0 ncont j2 ndisc) :
    (cells k0 ncont j1 ndisc).filter (fun c => v c ≠ 0) = (cells k0 ncont j2 ndisc).filter (fun c => v c ≠ 0) := by
  unfold cells
  rw [List.filter_append, List.filter_append, List.filter_flatMap, List.filter_flatMap]
  congr 1
  apply List.flatMap_congr
  intro k hk
  have key : ∀ a b : Int, (∀ c, v c ≠ 0 → c ∈ cells k0 ncont a ndisc) → a ≤ b →
      ((List.range (b + 1).toNat).flatMap fun j : Nat => [Cell.cont k j true, Cell.cont k j false]).filter (fun c => v c ≠ 0) =
        ((List.range (a + 1).toNat).flatMap fun j : Nat => [Cell.cont k j true, Cell.cont k j false]).filter (fun c => v c ≠ 0) := by
    intro a b ha hab
    refine filter_range (f := fun j : Nat => (Cell.cont k j true, Cell.cont k j false)) (by omega) ?_
    intro j hj _
    constructor
    · by_contra hc
      have := mem_cells.mp (ha _ hc)
      simp only at this
      omega
    · by_contra hc
      have := mem_cells.mp (ha _ hc)
      simp only at this
      omega
  rcases le_total j1 j2 with h | h
  · exact (key j1 j2 h1 h).symm
  · exact key j2 j1 h2 h

/-- Populations that differ only in the largest spins. -/
structure PopsAlike (n0 n1 : Nuc K) (m0 m1 : Mesh K) (a b : Pops K) : Prop where
  g : a.g = b.g
  n : a.n = b.n
  gpos : ∀ t ∈ a.g, 0 ≤ t.2
  npos : ∀ t ∈ a.n, 0 ≤ t.2
  spins : m0.ncont ≤ 1 ∨ 0 ≤ a.jmax0 ∧ 0 ≤ b.jmax0
  g1 : ∀ c, popOf a.g c ≠ 0 → c ∈ cells 1 m0.ncont a.jmax0 n0.levels.length
  g2 : ∀ c, popOf a.g c ≠ 0 → c ∈ cells 1 m0.ncont b.jmax0 n0.levels.length
  d1 : n0.status = true → ∀ c, popOf a.n c ≠ 0 → c ∈ cells 0 m1.ncont a.jmax1 n1.levels.length
  d2 : n0.status = true → ∀ c, popOf a.n c ≠ 0 → c ∈ cells 0 m1.ncont b.jmax1 n1.levels.length

theorem filter_map_pair (cs : List Cell) (t : Bool) (v : Cell → K) :
    (cs.map fun c => ((t, c), v c)).filter (fun x => x.2 ≠ 0) = (cs.filter fun c => v c ≠ 0).map fun c => ((t, c), v c) := by
  rw [List.filter_map]
  rfl

/-- The first state of the selection. -/
theorem cells_head {ncont ndisc : Nat} (hd : 0 < ndisc) : ∃ c, ∀ j : Int, ncont ≤ 1 ∨ 0 ≤ j → ∃ l, cells 1 ncont j ndisc = c :: l := by
  by_cases hc : ncont ≤ 1
  · refine ⟨.disc 0, fun j _ => ⟨(List.range' 1 (ndisc - 1)).map .disc, ?_⟩⟩
    unfold cells
    rw [show ncont - 1 = 0 by omega, List.range'_zero, List.flatMap_nil, List.nil_append, List.range_eq_range',
      show ndisc = (ndisc - 1) + 1 by omega, List.range'_succ]
    rfl
  · refine ⟨.cont 1 0 true, fun j hj => ?_⟩
    obtain ⟨J, hJ⟩ : ∃ J : Nat, (j + 1).toNat = J + 1 := ⟨j.toNat, by omega⟩
    obtain ⟨M, hM⟩ : ∃ M : Nat, ncont - 1 = M + 1 := ⟨ncont - 2, by omega⟩
    unfold cells
    rw [hM, hJ, List.range'_succ, List.flatMap_cons, List.range_eq_range' (n := J + 1), List.range'_succ, List.flatMap_cons]
    exact ⟨_, rfl⟩

theorem candidates_alike {n0 n1 : Nuc K} {m0 m1 : Mesh K} {a b : Pops K} (h : PopsAlike n0 n1 m0 m1 a b)
    (hl : n0.levels ≠ []) (r : K) : firstReach r 0 (candidates n0 n1 m0 m1 a) = firstReach r 0 (candidates n0 n1 m0 m1 b) := by
  have hf : (candidates n0 n1 m0 m1 a).filter (fun x => x.2 ≠ 0) = (candidates n0 n1 m0 m1 b).filter (fun x => x.2 ≠ 0) := by
    unfold candidates
    rw [List.filter_append, List.filter_append, filter_map_pair, filter_map_pair, ← h.g, filter_cells h.g1 h.g2]
    congr 1
    by_cases hs : n0.status = true
    · rw [if_pos hs, if_pos hs, filter_map_pair, filter_map_pair, ← h.n, filter_cells (h.d1 hs) (h.d2 hs)]
    · rw [if_neg hs, if_neg hs]
  obtain ⟨c, hc⟩ := cells_head (ncont := m0.ncont) (ndisc := n0.levels.length) (List.length_pos_of_ne_nil hl)
  obtain ⟨l1, e1⟩ := hc a.jmax0 (by rcases h.spins with h | h; exacts [Or.inl h, Or.inr h.1])
  obtain ⟨l2, e2⟩ := hc b.jmax0 (by rcases h.spins with h | h; exacts [Or.inl h, Or.inr h.2])
  have ha : ∃ l, candidates n0 n1 m0 m1 a = ((false, c), popOf a.g c) :: l := by
    unfold candidates
    rw [e1]
    exact ⟨_, rfl⟩
  have hb : ∃ l, candidates n0 n1 m0 m1 b = ((false, c), popOf a.g c) :: l := by
    unfold candidates
    rw [e2, h.g]
    exact ⟨_, rfl⟩
  obtain ⟨la, ea⟩ := ha
  obtain ⟨lb, eb⟩ := hb
  rw [ea, eb] at hf ⊢
  exact firstReach_alike r (popOf_nonneg h.gpos c) hf

theorem findNext_alike {n0 n1 : Nuc K} {m0 m1 : Mesh K} {a b : Pops K} (h : PopsAlike n0 n1 m0 m1 a b)
    (hl : n0.levels ≠ []) (c0 : Nat) (p j : Int) : findNext c0 n0 n1 m0 m1 a p j = findNext c0 n0 n1 m0 m1 b p j := by
  unfold findNext
  congr 1
  funext r
  rw [candidates_alike h hl r]

theorem scale_mem {q : K} {ts : List (Cell × K)} {c : Cell} (h : popOf (scale q ts) c ≠ 0) : ∃ t ∈ ts, t.1 = c := by
  obtain ⟨x, hx⟩ := popOf_ne_zero h
  obtain ⟨t, ht, e⟩ := List.mem_map.mp hx
  exact ⟨t, ht, (Prod.mk.inj e).1⟩

theorem jmax0_nonneg {maxJ : Nat} (hJ : 0 < maxJ) {j0 : Int} (hj : 0 ≤ j0) {ncont : Nat} (hn : ¬ ncont ≤ 1) (jm : Int) :
    0 ≤ jmax0After maxJ j0 ncont jm := by
  unfold jmax0After
  rw [if_neg hn]
  unfold jmaxGamma
  refine le_max_of_le_right ?_
  apply Int.tdiv_nonneg
  · simp only [Mult.l]
    omega
  · norm_num

theorem compoundDecay_alike {maxJ : Nat} {w : K} (hw : 0 ≤ w) (hJ : 0 < maxJ) {n0 n1 : Nuc K} {m0 m1 : Mesh K} {ph : Phys K}
    (hp : PhysNonneg ph) (p : Int) {jdx : Int} (hj : 0 ≤ jdx) (a0 a1 b0 b1 : Int) :
    AlikeAll (PopsAlike n0 n1 m0 m1) (compoundDecay maxJ w n0 n1 m0 m1 ph p jdx a0 a1)
      (compoundDecay maxJ w n0 n1 m0 m1 ph p jdx b0 b1) := by
  have hi := i0_cases n0
  have hj0 : 0 ≤ 2 * jdx + i0 n0 := by omega
  unfold compoundDecay
  extract_lets j0 g isOpen n jm0 jm1 tsum jm0' jm1'
  have hgp : ∀ t ∈ g, 0 ≤ t.2 := fun t ht => gammaTerms_nonneg hw hp ht
  have hnp : ∀ t ∈ n, 0 ≤ t.2 := by
    intro t ht
    by_cases ho : isOpen = true
    · simp only [n, if_pos ho] at ht
      exact neutronTerms_nonneg hw hp ht
    · simp only [n, if_neg ho] at ht
      cases ht
  have hsp : m0.ncont ≤ 1 ∨ 0 ≤ jm0 ∧ 0 ≤ jm0' := by
    by_cases hc : m0.ncont ≤ 1
    · exact Or.inl hc
    · exact Or.inr ⟨jmax0_nonneg hJ hj0 hc _, jmax0_nonneg hJ hj0 hc _⟩
  split
  · refine AlikeAll.same' (P := fun i => i < n0.levels.length) (fun s i t h => bypass_lt h) fun i hi' => AlikeAll.pure ?_
    have hd : ∀ (jm : Int) (c : Cell), popOf [(Cell.disc i, (1 : K))] c ≠ 0 → c ∈ cells 1 m0.ncont jm n0.levels.length := by
      intro jm c hc
      obtain ⟨x, hx⟩ := popOf_ne_zero hc
      simp only [List.mem_cons, List.not_mem_nil, or_false] at hx
      rw [(Prod.mk.inj hx).1]
      exact mem_cells.mpr hi'
    refine ⟨rfl, rfl, ?_, ?_, hsp, hd _, hd _, ?_, ?_⟩
    · intro t ht
      simp only [List.mem_cons, List.not_mem_nil, or_false] at ht
      rw [ht]
      exact zero_le_one
    · intro t ht
      cases ht
    · intro _ c hc
      exact absurd (popOf_nil c) hc
    · intro _ c hc
      exact absurd (popOf_nil c) hc
  · have ht : 0 ≤ tsum := add_nonneg
      (List.sum_nonneg fun x hx => by obtain ⟨t, ht, rfl⟩ := List.mem_map.mp hx; exact hgp t ht)
      (List.sum_nonneg fun x hx => by obtain ⟨t, ht, rfl⟩ := List.mem_map.mp hx; exact hnp t ht)
    have hq : 0 ≤ 1 / tsum := by positivity
    refine AlikeAll.pure ⟨rfl, rfl, ?_, ?_, hsp, ?_, ?_, ?_, ?_⟩
    · intro t hm
      obtain ⟨x, hx, rfl⟩ := List.mem_map.mp hm
      exact mul_nonneg (hgp x hx) hq
    · intro t hm
      obtain ⟨x, hx, rfl⟩ := List.mem_map.mp hm
      exact mul_nonneg (hnp x hx) hq
    · intro c hc
      obtain ⟨t, ht, rfl⟩ := scale_mem hc
      exact gammaTerms_cells ht
    · intro c hc
      obtain ⟨t, ht, rfl⟩ := scale_mem hc
      exact gammaTerms_cells ht
    · intro _ c hc
      obtain ⟨t, ht, rfl⟩ := scale_mem hc
      by_cases ho : isOpen = true
      · simp only [n, if_pos ho] at ht
        simp only [jm1, if_pos ho]
        exact neutronTerms_cells ht
      · simp only [n, if_neg ho] at ht
        cases ht
    · intro _ c hc
      obtain ⟨t, ht, rfl⟩ := scale_mem hc
      by_cases ho : isOpen = true
      · simp only [n, if_pos ho] at ht
        simp only [jm1', if_pos ho]
        exact neutronTerms_cells ht
      · simp only [n, if_neg ho] at ht
        cases ht


/-! ## The decay -/

variable {N : Nat}

/-- Leftover states that hold the same history so far, and the same time stamps for the particles in it that left a level. -/
structure StAlike (N : Nat) (a b : St K) : Prop where
  hs : a.hs = b.hs
  l1 : a.ts.length = N
  l2 : b.ts.length = N
  ts : ∀ (i : Nat) (h : Hist K), a.hs[i]? = some h → h.mp.disc = true → a.ts[i]? = b.ts[i]?

theorem StAlike.jmax {a b : St K} (h : StAlike N a b) (f g : Nat → Int) : StAlike N { a with jmax := f } { b with jmax := g } :=
  ⟨h.hs, h.l1, h.l2, h.ts⟩

theorem store_alike {par : Par K} {a b : St K} (h : StAlike N a b) (ic : Bool) (m0 m1 : MCPoint K)
    (hd : m0.disc = true → a.ts[a.hs.length]? = b.ts[a.hs.length]?) :
    AlikeAll (StAlike N) (store par ic m0 m1 a) (store par ic m0 m1 b) := by
  unfold store
  rw [← h.hs]
  split
  · exact fun _ => trivial
  · refine AlikeAll.same _ fun n0 => ?_
    dsimp only
    split
    · exact fun _ => trivial
    · refine AlikeAll.pure ⟨rfl, h.l1, h.l2, ?_⟩
      intro i x hx hdx
      simp only at hx
      by_cases hi : i < a.hs.length
      · rw [List.getElem?_append_left hi] at hx
        exact h.ts i x hx hdx
      · rw [List.getElem?_append_right (by omega)] at hx
        have h0 : i - a.hs.length = 0 := by
          by_contra hc
          rw [List.getElem?_eq_none (by simp; omega)] at hx
          cases hx
        rw [h0] at hx
        simp only [List.getElem?_cons_zero, Option.some.injEq] at hx
        obtain rfl : i = a.hs.length := by omega
        apply hd
        rw [← hx] at hdx
        split at hdx <;> exact hdx

theorem contStep_alike {par : Par K} (hw : 0 ≤ par.w) (hJ : 0 < par.maxJ) (hp : ∀ c e, PhysNonneg (par.phys c e))
    (hl : ∀ n ∈ par.chain, n.levels ≠ []) {a b : St K} (h : StAlike N a b) {m : MCPoint K} (hd : m.disc = false) :
    AlikeAll (fun x y => StAlike N x.1 y.1 ∧ x.2 = y.2) (contStep par a m) (contStep par b m) := by
  unfold contStep
  refine AlikeAll.same' (P := fun n0 => n0 ∈ par.chain) (fun s n t hn => ?_) fun n0 hn0 => ?_
  · exact List.mem_of_getElem? (Rnd.get_ok.mp hn).1
  refine AlikeAll.same _ fun m0 => AlikeAll.same _ fun d => ?_
  split
  · exact fun _ => trivial
  · rename_i hj
    refine (compoundDecay_alike hw hJ (hp m.n m.e) m.p (by omega) _ _ _ _).bind fun p q hpq => ?_
    rw [findNext_alike hpq (hl n0 hn0)]
    refine AlikeAll.same _ fun x => AlikeAll.same _ fun x => AlikeAll.same _ fun x => ?_
    refine (store_alike (h.jmax _ _) false m x (fun hc => by rw [hd] at hc; cases hc)).bind fun u v huv => ?_
    exact AlikeAll.pure ⟨huv, rfl⟩

theorem contLoop_alike {par : Par K} (hw : 0 ≤ par.w) (hJ : 0 < par.maxJ) (hp : ∀ c e, PhysNonneg (par.phys c e))
    (hl : ∀ n ∈ par.chain, n.levels ≠ []) : ∀ (fuel : Nat) {a b : St K} (_ : StAlike N a b) {m : MCPoint K} (_ : m.disc = false),
    AlikeAll (fun x y => StAlike N x.1 y.1 ∧ x.2 = y.2) (contLoop par fuel a m) (contLoop par fuel b m) := by
  intro fuel
  induction fuel with
  | zero => intro a b _ m _ s; trivial
  | succ fuel ih =>
    intro a b h m hd
    rw [contLoop, contLoop]
    refine (contStep_alike hw hJ hp hl h hd).bind fun x y hxy => ?_
    rw [← hxy.2]
    split
    · exact AlikeAll.pure ⟨hxy.1, hxy.2⟩
    · rename_i hc
      exact ih hxy.1 (by simpa using hc)

theorem writeAt_alike {a b : List K} (hl : a.length = b.length) (i : Nat) (x : K) :
    (∃ u v : List K, writeAt a i x = .ok u ∧ writeAt b i x = .ok v ∧ u.length = a.length ∧ v.length = b.length ∧ u[i]? = v[i]? ∧
      ∀ k : Nat, a[k]? = b[k]? → u[k]? = v[k]?) ∨ (writeAt a i x = .ub ∧ writeAt b i x = .ub) := by
  unfold writeAt
  simp only [Int.toNat_natCast, Int.natCast_nonneg, true_and]
  by_cases h : i < a.length
  · left
    refine ⟨a.set i x, b.set i x, if_pos h, if_pos (hl ▸ h), by simp, by simp, ?_, ?_⟩
    · rw [List.getElem?_set_self h, List.getElem?_set_self (hl ▸ h)]
    · intro k hk
      rw [List.getElem?_set, List.getElem?_set, ← hl, hk]
  · right
    exact ⟨if_neg h, if_neg (hl ▸ h)⟩

theorem cascadeLoop_alike {par : Par K} (c0 : Nat) (levels : List (Level K)) : ∀ (fuel i0 : Nat) (t : K) {a b : St K}
    (_ : StAlike N a b), AlikeAll (fun x y => x.1 = y.1 ∧ StAlike N x.2 y.2) (cascadeLoop par c0 levels fuel i0 t a)
      (cascadeLoop par c0 levels fuel i0 t b) := by
  intro fuel
  induction fuel with
  | zero => intro i0 t a b _ s; trivial
  | succ fuel ih =>
    intro i0 t a b h
    rw [cascadeLoop, cascadeLoop]
    split
    · exact AlikeAll.pure ⟨rfl, h⟩
    · refine AlikeAll.same _ fun l => AlikeAll.same _ fun t => ?_
      split
      · exact AlikeAll.pure ⟨rfl, h⟩
      · refine AlikeAll.same _ fun r => ?_
        cases pickBranch r l.branches with
        | none => exact ih i0 t h
        | some br =>
          refine AlikeAll.same _ fun x => ?_
          rw [← h.hs]
          refine AlikeAll.bind (R := fun u v : List K => u.length = N ∧ v.length = N ∧ u[a.hs.length]? = v[a.hs.length]? ∧
            ∀ k : Nat, a.ts[k]? = b.ts[k]? → u[k]? = v[k]?) ?_ ?_
          · intro s
            rcases writeAt_alike (h.l1.trans h.l2.symm) a.hs.length t with ⟨u, v, h1, h2, h3, h4, h5⟩ | ⟨h1, h2⟩
            · unfold Rnd.lift
              rw [h1, h2]
              exact ⟨⟨h3.trans h.l1, h4.trans h.l2, h5⟩, rfl⟩
            · unfold Rnd.lift
              rw [h1, h2]
              trivial
          · rintro u v ⟨h1, h1', h2, h3⟩
            refine AlikeAll.same _ fun l1 => ?_
            refine (store_alike (a := { a with ts := u }) (b := { b with hs := a.hs, ts := v }) ⟨rfl, h1, h1', fun i x hx hdx => h3 i (h.ts i x hx hdx)⟩
              _ _ _ (fun _ => h2)).bind fun p q hpq => ?_
            exact ih br.fstate t hpq

theorem cascade_alike {par : Par K} (c0 i0 : Nat) {a b : St K} (h : StAlike N a b) :
    AlikeAll (fun x y => x.1 = y.1 ∧ StAlike N x.2 y.2) (cascade par c0 i0 a) (cascade par c0 i0 b) := by
  intro s
  unfold cascade
  cases par.chain[c0]? with
  | none => trivial
  | some n => exact cascadeLoop_alike c0 n.levels _ _ _ h s

theorem marker_alike {par : Par K} (c f : Nat) {a b : St K} (h : StAlike N a b) :
    AlikeAll (fun x y : St K => x.hs = y.hs ∧ x.ts.length = N ∧ y.ts.length = N ∧
      ∀ (i : Nat) (z : Hist K), x.hs.dropLast[i]? = some z → z.mp.disc = true → x.ts[i]? = y.ts[i]?) (marker par c f a) (marker par c f b) := by
  unfold marker
  refine AlikeAll.same _ fun n => AlikeAll.same _ fun l => ?_
  rw [← h.hs]
  split
  · exact fun _ => trivial
  · refine AlikeAll.pure ⟨rfl, h.l1, h.l2, ?_⟩
    intro i z hz
    simp only [List.dropLast_concat] at hz
    exact h.ts i z hz

/-- States after a decay that agree in everything that is read from them. -/
def DoneAlike (N : Nat) (x y : St K) : Prop := x.hs = y.hs ∧ x.ts.length = N ∧ y.ts.length = N ∧
  ∀ (i : Nat) (z : Hist K), x.hs.dropLast[i]? = some z → z.mp.disc = true → x.ts[i]? = y.ts[i]?

theorem historyLoop_alike {par : Par K} (hw : 0 ≤ par.w) (hJ : 0 < par.maxJ) (hp : ∀ c e, PhysNonneg (par.phys c e))
    (hl : ∀ n ∈ par.chain, n.levels ≠ []) {a b : St K} (h : a.ts.length = N) (h' : b.ts.length = N) {m : MCPoint K} (hd : m.disc = false) :
    AlikeAll (DoneAlike N) (historyLoop par a m) (historyLoop par b m) := by
  unfold historyLoop
  refine (contLoop_alike hw hJ hp hl par.cap (a := { a with hs := [] }) (b := { b with hs := [] })
    ⟨rfl, h, h', fun i z hz => by cases hz⟩ hd).bind fun x y hxy => ?_
  rw [← hxy.2]
  refine AlikeAll.bind (R := fun p q => p.1 = q.1 ∧ StAlike N p.2 q.2) ?_ fun p q hpq => ?_
  · unfold finish
    split
    · exact cascade_alike _ _ hxy.1
    · exact AlikeAll.pure ⟨rfl, hxy.1⟩
  · rw [← hpq.1]
    exact marker_alike _ _ hpq.2

theorem decay_alike {par : Par K} (hw : 0 ≤ par.w) (hJ : 0 < par.maxJ) (hp : ∀ c e, PhysNonneg (par.phys c e))
    (hl : ∀ n ∈ par.chain, n.levels ≠ []) {a b : St K} (h : a.ts.length = N) (h' : b.ts.length = N) (E : K) (j p0 : Int) :
    AlikeAll (DoneAlike N) (decay par a E j p0) (decay par b E j p0) := by
  unfold decay
  refine AlikeAll.same _ fun n0 => AlikeAll.same _ fun m0 => ?_
  split
  · unfold discStart
    refine (cascade_alike 0 _ (a := { a with hs := [] }) (b := { b with hs := [] })
      ⟨rfl, h, h', fun i z hz => by cases hz⟩).bind fun p q hpq => ?_
    rw [← hpq.1]
    exact marker_alike _ _ hpq.2
  · unfold contStart
    split
    · exact fun _ => trivial
    · exact historyLoop_alike hw hJ hp hl (by exact h) (by exact h') (m := ⟨_, _, _, _, _, false⟩) rfl

theorem readAt_congr {t u : List K} {i : Nat} (h : t[i]? = u[i]?) : readAt t i = readAt u i := by
  unfold readAt
  simp only [Int.toNat_natCast, Int.natCast_nonneg, true_and]
  by_cases h1 : i < t.length
  · rw [List.getElem?_eq_getElem h1] at h
    obtain ⟨h2, h3⟩ := List.getElem?_eq_some_iff.mp h.symm
    rw [dif_pos h1, dif_pos h2, h3]
  · rw [List.getElem?_eq_none (by omega)] at h
    have h2 := List.getElem?_eq_none_iff.mp h.symm
    rw [dif_neg h1, dif_neg (by omega)]

theorem recordLoop_alike {nn ng ni : Nat} {t u : List K} : ∀ (hs : List (Hist K)) (i : Nat) (r : Rec K),
    (∀ (k : Nat) (z : Hist K), hs[k]? = some z → z.mp.disc = true → t[i + k]? = u[i + k]?) →
    recordLoop nn ng ni t i hs r = recordLoop nn ng ni u i hs r := by
  intro hs
  induction hs with
  | nil => intro i r _; rfl
  | cons z hs ih =>
    intro i r h
    rw [recordLoop, recordLoop]
    have h0 : recordOne nn ng ni t i z r = recordOne nn ng ni u i z r := by
      unfold recordOne
      have : stamp t i z = stamp u i z := by
        unfold stamp
        split
        · rename_i hd
          have := h 0 z rfl hd
          rw [add_zero] at this
          exact readAt_congr this
        · rfl
      rw [this]
    rw [h0]
    congr 1
    funext r'
    exact ih (i + 1) r' fun k y hy hd => by
      have := h (k + 1) y (by simpa using hy) hd
      rwa [show i + (k + 1) = i + 1 + k by omega] at this

theorem record_alike (nn ng ni : Nat) {x y : St K} (h : DoneAlike N x y) : record nn ng ni x = record nn ng ni y := by
  unfold record
  rw [← h.1, recordLoop_alike (u := y.ts) x.hs.dropLast 0 _ (fun k z hz hd => by rw [zero_add]; exact h.2.2.2 k z hz hd)]


/-! ## The chain -/

theorem initLoop_stale {tb : Tables K} {s1 s2 : Nat → K} {z : Int} : ∀ {n fuel k : Nat} {a : Int} {e : K} {ms : List K} (i : Nat),
    countOpen tb z fuel a e = .ok k → n ≤ k → masses tb z n a = .ok ms → initLoop tb s1 z ms i a e = initLoop tb s2 z ms i a e := by
  intro n
  induction n with
  | zero =>
    intro fuel k a e ms i _ _ hm
    rw [masses] at hm
    obtain ⟨m, -, h⟩ := Res.bind_eq_ok.mp hm
    cases h
    rfl
  | succ n ih =>
    intro fuel k a e ms i hc hn hm
    rw [masses] at hm
    obtain ⟨m, h1, h⟩ := Res.bind_eq_ok.mp hm
    obtain ⟨ms', h2, h⟩ := Res.bind_eq_ok.mp h
    cases h
    obtain ⟨m', ms'', rfl, h3⟩ : ∃ m' ms'', ms' = m' :: ms'' ∧ tb.mx z (a - 1) = .ok m' := by
      cases n with
      | zero =>
        rw [masses] at h2
        obtain ⟨m0, g, h'⟩ := Res.bind_eq_ok.mp h2
        cases h'
        exact ⟨_, _, rfl, g⟩
      | succ n =>
        rw [masses] at h2
        obtain ⟨m0, g, h'⟩ := Res.bind_eq_ok.mp h2
        obtain ⟨_, _, h'⟩ := Res.bind_eq_ok.mp h'
        cases h'
        exact ⟨_, _, rfl, g⟩
    cases fuel with
    | zero =>
      rw [countOpen] at hc
      cases hc
      omega
    | succ fuel =>
      rw [countOpen, h3, h1] at hc
      simp only [Res.bind_ok] at hc
      split at hc
      · cases hc
        omega
      · rename_i ho
        obtain ⟨k', h4, h5⟩ := Res.bind_eq_ok.mp hc
        cases h5
        have hlt : m' + tb.en - m < e := by
          by_contra hb
          exact ho (by linarith)
        rw [initLoop, initLoop, if_pos hlt, if_pos hlt, ih (i + 1) h4 (by omega) h2]

theorem initSystem_stale {tb : Tables K} {s1 s2 : Nat → K} {z a : Int} {E : K} {n : Nat} (hc : 0 < tb.maxc)
    (h : totalNeutrons tb z a E = .ok n) : initSystem tb s1 z a n E = initSystem tb s2 z a n E := by
  unfold totalNeutrons at h
  obtain ⟨k, h1, h2⟩ := Res.bind_eq_ok.mp h
  have hn : n ≤ k := by
    cases h2
    split <;> omega
  unfold initSystem
  split
  · rfl
  · cases hm : masses tb z n a with
    | ok ms =>
      simp only [Res.bind_ok]
      rw [initLoop_stale 0 h1 hn hm]
    | exit => rfl
    | ub => rfl

theorem fragment_alike {tb : Tables K} {par : Par K} (hc : 0 < tb.maxc) (hw : 0 ≤ par.w) (hJ : 0 < par.maxJ)
    (hp : ∀ c e, PhysNonneg (par.phys c e)) {z a : Int} (hl : ∀ k : Nat, tb.levels z (a - k) ≠ []) {u v : St K}
    (h : u.ts.length = N) (h' : v.ts.length = N) (s1 s2 : Nat → K) (E : K) (j p0 : Int) :
    AlikeAll (DoneAlike N) (fragment tb par u s1 z a E j p0) (fragment tb par v s2 z a E j p0) := by
  unfold fragment
  refine AlikeAll.same' (P := fun n => totalNeutrons tb z a E = .ok n) (fun s n t hn => (Rnd.lift_ok.mp hn).1) fun n hn => ?_
  rw [initSystem_stale (s1 := s1) (s2 := s2) hc hn]
  refine AlikeAll.same' (P := fun c => initSystem tb s2 z a n E = .ok c) (fun s n t hn => (Rnd.lift_ok.mp hn).1) fun c hi => ?_
  refine decay_alike (par := { par with chain := c }) hw hJ hp ?_ h h' E j p0
  intro x hx
  obtain ⟨k, hk⟩ := List.mem_iff_getElem?.mp hx
  unfold initSystem at hi
  split at hi
  · cases hi
  · obtain ⟨ms, -, h2⟩ := Res.bind_eq_ok.mp hi
    cases h2
    rw [(initLoop_get hk).2.2.1]
    exact hl k

end CGMF.MC
