import Verif.Model.Chain
import Verif.Proofs.Safe
import Verif.Proofs.Record

/-! # Lemmas about the chain of nuclei -/

set_option linter.unusedSectionVars false

namespace CGMF.MC

open CGMF.Grid CGMF.HF

variable {K : Type} [Field K] [LinearOrder K] [IsStrictOrderedRing K]

theorem countOpen_ok {tb : Tables K} {M : Int → Int → K} {z : Int} (hM : ∀ z a v, tb.mx z a = .ok v → v = M z a) :
    ∀ {fuel : Nat} {a : Int} {e : K} {n : Nat}, countOpen tb z fuel a e = .ok n →
    n ≤ fuel ∧ (∀ k, k ≤ n → tb.mx z (a - k) = .ok (M z (a - k)) ∨ (n = 0 ∧ fuel = 0)) ∧
    (∀ k, 1 ≤ k → k ≤ n → sepSum M tb.en z a k < e) ∧
    (n < fuel → e ≤ sepSum M tb.en z a (n + 1)) := by
  intro fuel
  induction fuel with
  | zero =>
    intro a e n h
    rw [countOpen] at h
    cases h
    exact ⟨le_rfl, fun k _ => Or.inr ⟨rfl, rfl⟩, fun k h1 h2 => by omega, fun h => by omega⟩
  | succ f ih =>
    intro a e n h
    rw [countOpen] at h
    obtain ⟨m1, h1, h⟩ := Res.bind_eq_ok.mp h
    obtain ⟨m0, h0, h⟩ := Res.bind_eq_ok.mp h
    have e1 := hM _ _ _ h1
    have e0 := hM _ _ _ h0
    have s1 : sepSum M tb.en z a 1 = m1 + tb.en - m0 := by
      unfold sepSum; rw [e1, e0]; push_cast; ring
    split at h
    · rename_i hc
      cases h
      refine ⟨by omega, ?_, fun k h1 h2 => by omega, fun _ => ?_⟩
      · intro k hk
        have : k = 0 := by omega
        subst this
        left
        simpa [e0] using h0
      · rw [s1]; linarith
    · rename_i hc
      obtain ⟨n', h2, h3⟩ := Res.bind_eq_ok.mp h
      cases h3
      obtain ⟨i1, i2, i3, i4⟩ := ih h2
      have shift : ∀ k, sepSum M tb.en z a (k + 1) = sepSum M tb.en z (a - 1) k + (m1 + tb.en - m0) := by
        intro k
        unfold sepSum
        rw [e1, e0]
        push_cast
        rw [show a - ((k : Int) + 1) = a - 1 - k by ring]
        ring
      refine ⟨by omega, ?_, ?_, ?_⟩
      · intro k hk
        rcases Nat.eq_zero_or_pos k with h | h
        · subst h; left; simpa [e0] using h0
        · obtain ⟨k, rfl⟩ : ∃ k', k = k' + 1 := ⟨k - 1, by omega⟩
          left
          rcases i2 k (by omega) with h | ⟨h, h'⟩
          · rw [show a - ((k + 1 : Nat) : Int) = a - 1 - k by push_cast; ring]
            exact h
          · have : k = 0 := by omega
            subst this
            rw [show a - ((0 + 1 : Nat) : Int) = a - 1 by norm_num, h1, e1]
      · intro k hk1 hk2
        obtain ⟨k, rfl⟩ : ∃ k', k = k' + 1 := ⟨k - 1, by omega⟩
        rw [shift]
        rcases Nat.eq_zero_or_pos k with h | h
        · subst h
          have : sepSum M tb.en z (a - 1) 0 = 0 := by unfold sepSum; simp
          rw [this]
          linarith [not_le.mp hc]
        · have := i3 k h (by omega)
          linarith
      · intro hlt
        rw [shift]
        have := i4 (by omega)
        linarith

theorem masses_ok {tb : Tables K} {M : Int → Int → K} {z : Int} (hM : ∀ z a v, tb.mx z a = .ok v → v = M z a) :
    ∀ {n : Nat} {a : Int} {ms : List K}, masses tb z n a = .ok ms →
    ms = (List.range (n + 1)).map fun i : Nat => M z (a - i) := by
  intro n
  induction n with
  | zero =>
    intro a ms h
    rw [masses] at h
    obtain ⟨m, h1, h⟩ := Res.bind_eq_ok.mp h
    cases h
    rw [hM _ _ _ h1]
    simp
  | succ n ih =>
    intro a ms h
    rw [masses] at h
    obtain ⟨m, h1, h⟩ := Res.bind_eq_ok.mp h
    obtain ⟨ms', h2, h⟩ := Res.bind_eq_ok.mp h
    cases h
    rw [hM _ _ _ h1, ih h2, List.range_succ_eq_map (n := n + 1), List.map_cons, List.map_map]
    congr 1
    · simp
    · apply List.map_congr_left
      intro i _
      simp only [Function.comp]
      congr 1
      push_cast
      ring

theorem masses_total {tb : Tables K} {z : Int} : ∀ {n : Nat} {a : Int},
    (∀ k, k ≤ n → ∃ v, tb.mx z (a - (k : Nat)) = .ok v) → ∃ ms, masses tb z n a = .ok ms := by
  intro n
  induction n with
  | zero =>
    intro a h
    obtain ⟨v, hv⟩ := h 0 le_rfl
    rw [masses]
    have : a - ((0 : Nat) : Int) = a := by simp
    rw [this] at hv
    rw [hv]
    exact ⟨[v], rfl⟩
  | succ n ih =>
    intro a h
    obtain ⟨v, hv⟩ := h 0 (by omega)
    have : a - ((0 : Nat) : Int) = a := by simp
    rw [this] at hv
    obtain ⟨ms, hms⟩ := ih (a := a - 1) (by
      intro k hk
      obtain ⟨v, hv⟩ := h (k + 1) (by omega)
      exact ⟨v, by rw [show a - 1 - (k : Int) = a - ((k + 1 : Nat) : Int) by push_cast; ring]; exact hv⟩)
    rw [masses, hv]
    simp only [Res.bind_ok, hms, Res.pure_eq]
    exact ⟨_, rfl⟩

theorem initLoop_get {tb : Tables K} {stale : Nat → K} {z : Int} : ∀ {ms : List K} {i : Nat} {a : Int} {e : K}
    {k : Nat} {n : Nuc K}, (initLoop tb stale z ms i a e)[k]? = some n →
    n.Z = z ∧ n.A = a - k ∧ n.levels = tb.levels z (a - k) ∧ n.next = i + k + 1 ∧ k < ms.length ∧
    (n.status = true → k + 1 < ms.length) ∧
    (∀ m m', ms[k]? = some m → ms[k + 1]? = some m' → n.sn = m' + tb.en - m) := by
  intro ms
  induction ms with
  | nil => intro i a e k n h; simp [initLoop] at h
  | cons m ms ih =>
    intro i a e k n h
    cases ms with
    | nil =>
      rw [initLoop] at h
      cases k with
      | zero =>
        simp at h
        subst h
        simp
      | succ k => simp at h
    | cons m' ms =>
      rw [initLoop] at h
      cases k with
      | zero =>
        simp at h
        subst h
        simp
      | succ k =>
        rw [List.getElem?_cons_succ] at h
        obtain ⟨h1, h2, h3, h4, h5, h6, h7⟩ := ih h
        have ea : a - ((k + 1 : Nat) : Int) = a - 1 - k := by push_cast; ring
        rw [ea]
        refine ⟨h1, h2, h3, by omega, by simpa using h5, ?_, ?_⟩
        · intro hs; have := h6 hs; simp only [List.length_cons] at this ⊢; omega
        · intro x y hx hy
          exact h7 x y (by simpa using hx) (by simpa using hy)

theorem initLoop_length {tb : Tables K} {stale : Nat → K} {z : Int} : ∀ {ms : List K} {i : Nat} {a : Int} {e : K},
    (initLoop tb stale z ms i a e).length = ms.length := by
  intro ms
  induction ms with
  | nil => intro i a e; rfl
  | cons m ms ih =>
    intro i a e
    cases ms with
    | nil => rfl
    | cons m' ms => rw [initLoop, List.length_cons, ih]; simp

/-- Properties of the whole chain. -/
theorem initSystem_ok {tb : Tables K} {M : Int → Int → K} (hM : ∀ z a v, tb.mx z a = .ok v → v = M z a)
    {stale : Nat → K} {z a : Int} {nemit : Nat} {E : K} {chain : List (Nuc K)}
    (h : initSystem tb stale z a nemit E = .ok chain) :
    chain.length = nemit + 1 ∧ nemit < tb.maxc ∧ (∀ (i : Nat) (n : Nuc K), chain[i]? = some n → n.Z = z ∧ n.A = a - i ∧
      n.levels = tb.levels z (a - i) ∧ n.next = i + 1 ∧ (n.status = true → i < nemit) ∧
      (i < nemit → n.sn = M z (a - (i + 1)) + tb.en - M z (a - i))) := by
  unfold initSystem at h
  split at h
  · cases h
  · rename_i hc
    obtain ⟨ms, h1, h2⟩ := Res.bind_eq_ok.mp h
    cases h2
    have hms := masses_ok hM h1
    have hlen : ms.length = nemit + 1 := by rw [hms]; simp
    refine ⟨by rw [initLoop_length, hlen], by omega, ?_⟩
    intro i n hn
    obtain ⟨g1, g2, g3, g4, g5, g6, g7⟩ := initLoop_get hn
    refine ⟨g1, g2, g3, by omega, fun hs => by have := g6 hs; omega, ?_⟩
    intro hi
    refine g7 _ _ ?_ ?_
    · rw [hms, List.getElem?_map, List.getElem?_range (by omega)]; rfl
    · rw [hms, List.getElem?_map, List.getElem?_range (by omega)]; simp

theorem initSystem_next {tb : Tables K} {M : Int → Int → K} (hM : ∀ z a v, tb.mx z a = .ok v → v = M z a)
    {stale : Nat → K} {z a : Int} {nemit : Nat} {E : K} {chain : List (Nuc K)}
    (h : initSystem tb stale z a nemit E = .ok chain) : ChainNext chain := by
  intro i n hn _
  exact ((initSystem_ok hM h).2.2 i n hn).2.2.2.1

/-- Sum of the separation energies of a chain, from the mass table. -/
theorem initSystem_sum {tb : Tables K} {M : Int → Int → K} (hM : ∀ z a v, tb.mx z a = .ok v → v = M z a)
    {stale : Nat → K} {z a : Int} {nemit : Nat} {E : K} {chain : List (Nuc K)}
    (h : initSystem tb stale z a nemit E = .ok chain) : ∀ k, k ≤ nemit →
    ((List.range k).map fun i : Nat => snOf chain i).sum = sepSum M tb.en z a k := by
  obtain ⟨hl, -, hc⟩ := initSystem_ok hM h
  intro k
  induction k with
  | zero => intro _; simp [sepSum]
  | succ k ih =>
    intro hk
    rw [List.range_succ, List.map_append, List.sum_append, ih (by omega)]
    have hget : chain[k]? = some chain[k] := by simp
    have := (hc k _ hget).2.2.2.2.2 (by omega)
    simp only [List.map_cons, List.map_nil, List.sum_cons, List.sum_nil, add_zero]
    unfold snOf
    rw [hget]
    simp only
    rw [this]
    unfold sepSum
    push_cast
    ring

/-- With the number of neutrons that `statTotalNeutrons` returns, all channels but the last are open and
no stale energy is used. -/
theorem initLoop_status {tb : Tables K} {M : Int → Int → K} {stale : Nat → K} {z : Int} :
    ∀ (nemit : Nat) (i : Nat) (a : Int) (e : K),
    (∀ k, 1 ≤ k → k ≤ nemit → sepSum M tb.en z a k < e) →
    ∀ k n, (initLoop tb stale z ((List.range (nemit + 1)).map fun j : Nat => M z (a - j)) i a e)[k]? = some n →
    (n.status = true ↔ k < nemit) := by
  intro nemit
  induction nemit with
  | zero =>
    intro i a e _ k n h
    simp only [Nat.zero_add, List.range_one, List.map_cons, List.map_nil] at h
    rw [initLoop] at h
    cases k with
    | zero => simp at h; subst h; simp
    | succ k => simp at h
  | succ m ih =>
    intro i a e hs k n h
    have hl : (List.range (m + 1 + 1)).map (fun j : Nat => M z (a - j)) =
        M z a :: (List.range (m + 1)).map (fun j : Nat => M z (a - 1 - j)) := by
      rw [List.range_succ_eq_map, List.map_cons, List.map_map]
      congr 1
      · simp
      · apply List.map_congr_left
        intro j _
        simp only [Function.comp]
        congr 1
        push_cast
        ring
    have hl2 : (List.range (m + 1)).map (fun j : Nat => M z (a - 1 - j)) =
        M z (a - 1) :: (List.range m).map (fun j : Nat => M z (a - 1 - ((j + 1 : Nat) : Int))) := by
      rw [List.range_succ_eq_map, List.map_cons, List.map_map]
      congr 1
      simp
    rw [hl, hl2, initLoop, ← hl2] at h
    have h1 : M z (a - 1) + tb.en - M z a < e := by
      have := hs 1 le_rfl (by omega)
      unfold sepSum at this
      push_cast at this
      linarith
    rw [if_pos h1] at h
    cases k with
    | zero =>
      simp only [List.getElem?_cons_zero, Option.some.injEq] at h
      subst h
      simp [h1]
    | succ k =>
      rw [List.getElem?_cons_succ] at h
      rw [ih (i + 1) (a - 1) _ ?_ k n h]
      · omega
      · intro k hk1 hk2
        have := hs (k + 1) (by omega) (by omega)
        unfold sepSum at this ⊢
        push_cast at this
        rw [show a - ((k : Int) + 1) = a - 1 - k by ring] at this
        linarith

theorem totalNeutrons_ok {tb : Tables K} {M : Int → Int → K} (hM : ∀ z a v, tb.mx z a = .ok v → v = M z a)
    {z a : Int} {E : K} {n : Nat} (hc : 0 < tb.maxc) (h : totalNeutrons tb z a E = .ok n) :
    n < tb.maxc ∧ n ≤ 10 ∧ (∀ k, k ≤ n → tb.mx z (a - k) = .ok (M z (a - k))) ∧
    (∀ k, 1 ≤ k → k ≤ n → sepSum M tb.en z a k < E) ∧
    (n + 1 < tb.maxc → n < 10 → E ≤ sepSum M tb.en z a (n + 1)) := by
  unfold totalNeutrons at h
  obtain ⟨n', h1, h2⟩ := Res.bind_eq_ok.mp h
  obtain ⟨g1, g2, g3, g4⟩ := countOpen_ok hM h1
  cases h2
  have g2' : ∀ k, k ≤ n' → tb.mx z (a - k) = .ok (M z (a - k)) := by
    intro k hk
    rcases g2 k hk with h | ⟨-, h⟩
    · exact h
    · omega
  split
  · rename_i hlt
    refine ⟨by omega, by omega, fun k hk => g2' k (by omega), fun k h1 h2 => g3 k h1 (by omega), fun h => by omega⟩
  · rename_i hlt
    exact ⟨by omega, g1, g2', g3, fun h1 h2 => g4 h2⟩

/-- The stages of the decay of one fragment. -/
theorem fragment_ok {tb : Tables K} {par : Par K} {st st' : St K} {stale : Nat → K} {z a : Int} {E : K}
    {jint p0 : Int} {s s' : List K} (h : fragment tb par st stale z a E jint p0 s = .ok (st', s')) :
    ∃ n chain, totalNeutrons tb z a E = .ok n ∧ initSystem tb stale z a n E = .ok chain ∧
      decay { par with chain := chain } st E jint p0 s = .ok (st', s') := by
  unfold fragment at h
  rw [Rnd.bind_ok] at h
  obtain ⟨n, s1, h1', h⟩ := h
  obtain ⟨h1, rfl⟩ := Rnd.lift_ok.mp h1'
  rw [Rnd.bind_ok] at h
  obtain ⟨chain, s2, h2', h⟩ := h
  obtain ⟨h2, rfl⟩ := Rnd.lift_ok.mp h2'
  exact ⟨n, chain, h1, h2, h⟩

/-- The set-up never stops or fails once the neutrons have been counted. -/
theorem initSystem_total {tb : Tables K} {M : Int → Int → K} (hM : ∀ z a v, tb.mx z a = .ok v → v = M z a)
    {stale : Nat → K} {z a : Int} {E : K} {n : Nat} (hc : 0 < tb.maxc) (h : totalNeutrons tb z a E = .ok n) :
    ∃ chain, initSystem tb stale z a n E = .ok chain := by
  obtain ⟨h1, -, h2, -⟩ := totalNeutrons_ok hM hc h
  obtain ⟨ms, hms⟩ := masses_total (tb := tb) (z := z) (n := n) (a := a) (fun k hk => ⟨_, h2 k hk⟩)
  unfold initSystem
  rw [if_neg (by omega), hms]
  exact ⟨_, rfl⟩

/-- All channels but the last are open. -/
theorem initSystem_status {tb : Tables K} {M : Int → Int → K} (hM : ∀ z a v, tb.mx z a = .ok v → v = M z a)
    {stale : Nat → K} {z a : Int} {E : K} {n : Nat} {chain : List (Nuc K)} (hc : 0 < tb.maxc)
    (h : totalNeutrons tb z a E = .ok n) (hi : initSystem tb stale z a n E = .ok chain) :
    ∀ (i : Nat) (x : Nuc K), chain[i]? = some x → (x.status = true ↔ i < n) := by
  obtain ⟨-, -, -, h3, -⟩ := totalNeutrons_ok hM hc h
  unfold initSystem at hi
  split at hi
  · cases hi
  · obtain ⟨ms, h1, h2⟩ := Res.bind_eq_ok.mp hi
    cases h2
    rw [masses_ok hM h1]
    exact initLoop_status n 0 a E h3

end CGMF.MC
