import Verif.Spec.Levels
import Verif.Proofs.Event

set_option linter.unusedSectionVars false

namespace CGMF.Ripl

open CGMF.Spec CGMF.Event

variable {K : Type} [Field K] [LinearOrder K] [IsStrictOrderedRing K]

theorem djump_le_one (a b : Int) : djump a b ≤ 1 ↔ |a - b| < 4 := by
  unfold djump; omega

/-- Indices of the dipole partners, counted from `i`. -/
def e1Idx (s p : Int) : List (Level K) → Nat → List Nat
  | [], _ => []
  | l :: ls, i =>
    if s = 0 ∧ l.spin2 = 0 then e1Idx s p ls (i + 1)
    else if l.parity ≠ p ∧ djump l.spin2 s ≤ 1 then i :: e1Idx s p ls (i + 1)
    else e1Idx s p ls (i + 1)

/-- Smallest spin distance over the list. -/
def dmin (s : Int) : List (Level K) → Int → Int
  | [], dm => dm
  | l :: ls, dm => if s = 0 ∧ l.spin2 = 0 then dmin s ls dm else dmin s ls (min dm (djump l.spin2 s))

/-- Entry written for a chosen daughter. -/
def gam (i : Nat) : Gam K := ⟨i, 1, 0⟩

theorem take_set_succ {α} (xs : List α) (n : Nat) (v : α) (h : n < xs.length) :
    (xs.set n v).take (n + 1) = xs.take n ++ [v] := by
  rw [List.take_succ_eq_append_getElem (by simpa using h)]
  simp [List.take_set_of_le]

theorem e1Loop_spec (mb : Nat) (s p : Int) (ls : List (Level K)) :
    ∀ (i : Nat) (arr : List (Gam K)) (n : Nat) (dm : Int), n < mb - 1 → mb ≤ arr.length →
    ∃ arr' dm', e1Loop mb s p ls i arr n dm =
        .ok (arr', n + ((e1Idx s p ls i).take (mb - 1 - n)).length, dm') ∧
      arr'.length = arr.length ∧
      arr'.take (n + ((e1Idx s p ls i).take (mb - 1 - n)).length) =
        arr.take n ++ ((e1Idx s p ls i).take (mb - 1 - n)).map gam ∧
      (e1Idx s p ls i = [] → arr' = arr ∧ dm' = dmin s ls dm) := by
  induction ls with
  | nil => intro i arr n dm hn hm; exact ⟨arr, dm, by simp [e1Loop, e1Idx, dmin]⟩
  | cons l ls ih =>
    intro i arr n dm hn hm
    unfold e1Loop e1Idx dmin
    by_cases hz : s = 0 ∧ l.spin2 = 0
    · simp only [if_pos hz]; exact ih (i + 1) arr n dm hn hm
    · simp only [if_neg hz]
      by_cases hp : l.parity ≠ p ∧ djump l.spin2 s ≤ 1
      · simp only [if_pos hp]
        have hna : n < arr.length := by omega
        rw [writeAt_nat _ _ _ hna]
        simp only [Res.bind]
        obtain ⟨q, hq⟩ : ∃ q, mb - 1 - n = q + 1 := ⟨mb - 1 - n - 1, by omega⟩
        by_cases he : n + 1 = mb - 1
        · rw [if_pos he]
          have hq0 : q = 0 := by omega
          subst hq0
          refine ⟨arr.set n ⟨i, 1, 0⟩, min dm (djump l.spin2 s), by rw [hq]; simp, by simp, ?_, by simp⟩
          rw [hq]
          simp only [List.take_succ_cons, List.take_zero, List.length_cons, List.length_nil, List.map_cons,
            List.map_nil, zero_add]
          rw [take_set_succ _ _ _ hna]; rfl
        · rw [if_neg he]
          obtain ⟨arr', dm', h1, h2, h3, h4⟩ := ih (i + 1) (arr.set n ⟨i, 1, 0⟩) (n + 1)
            (min dm (djump l.spin2 s)) (by omega) (by simpa using hm)
          have hq' : mb - 1 - (n + 1) = q := by omega
          rw [hq'] at h1 h3
          rw [hq]
          simp only [List.take_succ_cons, List.length_cons, List.map_cons]
          refine ⟨arr', dm', ?_, by simpa using h2, ?_, by simp⟩
          · rw [h1]; congr 3; omega
          · rw [show n + ((List.take q (e1Idx s p ls (i + 1))).length + 1)
              = n + 1 + (List.take q (e1Idx s p ls (i + 1))).length by omega, h3,
              take_set_succ _ _ _ hna]
            simp [gam]
      · simp only [if_neg hp]
        exact ih (i + 1) arr n _ hn hm

/-- First index at distance `dm`. -/
def nearIdx (s dm : Int) : List (Level K) → Nat → Option Nat
  | [], _ => none
  | l :: ls, i =>
    if s = 0 ∧ l.spin2 = 0 then nearIdx s dm ls (i + 1)
    else if djump l.spin2 s = dm then some i
    else nearIdx s dm ls (i + 1)

theorem nearLoop_spec (s dm : Int) (ls : List (Level K)) (arr : List (Gam K)) (h : 0 < arr.length) :
    ∀ i, nearLoop s dm ls i arr = match nearIdx s dm ls i with
      | none => .ok (arr, 0)
      | some d => .ok (arr.set 0 (gam d), 1) := by
  induction ls with
  | nil => intro i; rfl
  | cons l ls ih =>
    intro i
    unfold nearLoop nearIdx
    by_cases hz : s = 0 ∧ l.spin2 = 0
    · simp only [if_pos hz]; exact ih (i + 1)
    · simp only [if_neg hz]
      by_cases hd : djump l.spin2 s = dm
      · simp only [if_pos hd]
        have := writeAt_nat arr 0 (gam i : Gam K) h
        simp only [gam] at this
        simp only [Nat.cast_zero] at this
        rw [this]; rfl
      · simp only [if_neg hd]; exact ih (i + 1)

/-- The daughters chosen for level `k` above `below`. -/
def chosen (mb k : Nat) (s p : Int) (below : List (Level K)) : List Nat :=
  if k = 1 then [0]
  else if e1Idx s p below 0 ≠ [] then (e1Idx s p below 0).take (mb - 1)
  else match nearIdx s (dmin s below 100) below 0 with
    | none => [0]
    | some d => [d]

/-- Result of reading and normalising the transitions of a level without listed ones. -/
theorem fix_normalise (mb : Nat) (hmb : 2 ≤ mb) (k : Nat) (lev : List (Level K)) (lk : Level K)
    (hk : lev[k]? = some lk) :
    ∃ arr n, fixTransition mb (arrays mb ([] : List (Gam K))) k lev = .ok (arr, n) ∧
      ∃ u, normalise n arr = .ok u ∧
        stored u.1 u.2 = (chosen mb k lk.spin2 lk.parity (lev.take k)).map
          fun d => ⟨d, 1 / ((chosen mb k lk.spin2 lk.parity (lev.take k)).length : K), 1⟩ := by
  have harr : arrays mb ([] : List (Gam K)) = List.replicate mb ⟨0, 1, 0⟩ := by simp [arrays]
  have hlen : (arrays mb ([] : List (Gam K))).length = mb := by simp [harr]
  -- normalisation of `n ≥ 1` entries of intensity one
  have norm : ∀ (arr : List (Gam K)) (ds : List Nat), ds ≠ [] → ds.length ≤ arr.length →
      arr.take ds.length = ds.map gam → ∃ u, normalise ds.length arr = .ok u ∧
        stored u.1 u.2 = ds.map fun d => ⟨d, 1 / (ds.length : K), 1⟩ := by
    intro arr ds hne hle hds
    have hsum : ((arr.take ds.length).map Gam.pe).sum = (ds.length : K) := by
      rw [hds, List.map_map]
      simp [gam, Function.comp_def]
    have hpos : (0 : K) < ds.length := by exact_mod_cast List.length_pos_iff.mpr hne
    unfold normalise
    rw [if_neg (by omega), hsum, if_neg hpos.ne']
    refine ⟨_, rfl, ?_⟩
    unfold stored
    simp only []
    rw [List.take_left' (by rw [List.length_map, List.length_take]; omega), hds]
    simp [gam, Function.comp_def]
  -- no transition at all
  have norm0 : ∀ arr : List (Gam K), arr = List.replicate mb ⟨0, 1, 0⟩ → ∃ u, normalise 0 arr = .ok u ∧
      stored u.1 u.2 = [⟨0, 1, 1⟩] := by
    intro arr h
    subst h
    obtain ⟨m, rfl⟩ : ∃ m, mb = m + 1 := ⟨mb - 1, by omega⟩
    refine ⟨(List.replicate (m + 1) ⟨0, 1, 0⟩, 1), ?_, ?_⟩
    · unfold normalise
      simp [List.replicate_succ, readAt, writeAt, Res.bind]
    · simp [stored, List.replicate_succ]
  have hkl : k < lev.length := by
    by_contra hc
    rw [List.getElem?_eq_none (by omega)] at hk; cases hk
  have hread : readAt lev (k : Int) = .ok lk := by
    rw [readAt_nat _ _ hkl]
    rw [List.getElem?_eq_getElem hkl] at hk
    cases hk; rfl
  unfold fixTransition chosen
  by_cases h1 : k = 1
  · rw [if_pos h1]
    have hw := writeAt_nat (arrays mb ([] : List (Gam K))) 0 ⟨0, 1, 0⟩ (by omega)
    simp only [Nat.cast_zero] at hw
    rw [hw]
    refine ⟨_, _, rfl, ?_⟩
    rw [if_pos h1]
    have := norm ((arrays mb ([] : List (Gam K))).set 0 ⟨0, 1, 0⟩) [0] (by simp) (by simp; omega) (by
      obtain ⟨m, rfl⟩ : ∃ m, mb = m + 1 := ⟨mb - 1, by omega⟩
      simp [harr, List.replicate_succ, gam])
    simpa using this
  · rw [if_neg h1, if_neg h1, hread]
    obtain ⟨arr', dm', e1, e2, e3, e4⟩ := e1Loop_spec mb lk.spin2 lk.parity (lev.take k) 0
      (arrays mb ([] : List (Gam K))) 0 100 (by omega) (by omega)
    simp only [Res.bind]
    rw [e1]
    simp only [zero_add, Nat.sub_zero]
    by_cases hE : e1Idx lk.spin2 lk.parity (lev.take k) 0 = []
    · obtain ⟨ha, hd⟩ := e4 hE
      subst ha hd
      rw [if_neg (not_not.mpr hE)]
      rw [hE]
      simp only [List.take_nil, List.length_nil, if_true]
      rw [nearLoop_spec _ _ _ _ (by omega)]
      cases hn : nearIdx lk.spin2 (dmin lk.spin2 (lev.take k) 100) (lev.take k) 0 with
      | none =>
        refine ⟨_, _, rfl, ?_⟩
        obtain ⟨u, hu, hs⟩ := norm0 _ harr
        exact ⟨u, hu, by simpa using hs⟩
      | some d =>
        refine ⟨_, _, rfl, ?_⟩
        have := norm ((arrays mb ([] : List (Gam K))).set 0 (gam d)) [d] (by simp) (by simp; omega) (by
          obtain ⟨m, rfl⟩ : ∃ m, mb = m + 1 := ⟨mb - 1, by omega⟩
          simp [harr, List.replicate_succ])
        simpa using this
    · rw [if_pos hE]
      have hne : (e1Idx lk.spin2 lk.parity (lev.take k) 0).take (mb - 1) ≠ [] := by
        intro h0
        rcases List.take_eq_nil_iff.mp h0 with h | h
        · omega
        · exact hE h
      simp only [zero_add, Nat.sub_zero, List.take_zero, List.nil_append] at e3
      rw [if_neg (by have := List.length_pos_iff.mpr hne; omega)]
      refine ⟨_, _, rfl, ?_⟩
      exact norm _ _ hne (by rw [e2, hlen, List.length_take]; omega) e3

/-- Normalisation of listed transitions. -/
theorem listed_normalise (mb : Nat) (gs : List (Gam K)) (hne : gs ≠ []) :
    ∃ u, normalise gs.length (arrays mb gs) = .ok u ∧ stored u.1 u.2 = listed gs := by
  have htake : (arrays mb gs).take gs.length = gs := by simp [arrays]
  have hle : gs.length ≤ (arrays mb gs).length := by simp [arrays]
  unfold normalise
  rw [if_neg (by omega), htake]
  by_cases hS : (gs.map Gam.pe).sum = 0
  · rw [if_pos hS]
    by_cases h1 : 1 < gs.length
    · rw [if_pos h1]
      refine ⟨_, rfl, ?_⟩
      unfold stored listed
      simp only []
      rw [List.take_left' (by simp)]
      simp [hS, Function.comp_def]
    · rw [if_neg h1]
      obtain ⟨g, rfl⟩ : ∃ g, gs = [g] := by
        match gs, hne, h1 with
        | [g], _, _ => exact ⟨g, rfl⟩
        | _ :: _ :: _, _, h => simp at h
      have hS' : g.pe = 0 := by simpa using hS
      refine ⟨(⟨g.nf, 1, 0⟩ :: (arrays mb [g]).drop 1, 1), ?_, ?_⟩
      · simp [arrays, readAt, writeAt, Res.bind]
      · simp [stored, listed, hS']
  · rw [if_neg hS]
    refine ⟨_, rfl, ?_⟩
    unfold stored listed
    simp only []
    rw [List.take_left' (by simp)]
    simp only [if_neg hS, List.map_map, Function.comp_def]
    refine List.map_congr_left ?_
    intro g _
    congr 1
    field_simp

/-! ### The choice of daughters meets its specification -/

/-- Levels and records with the same spins and parities. -/
def Alike (bl : List (Level K)) (br : List (Raw K)) : Prop :=
  List.Forall₂ (fun l r => l.spin2 = r.spin2 ∧ l.parity = r.parity) bl br

theorem e1Idx_eq (s p : Int) {bl : List (Level K)} {br : List (Raw K)} (h : Alike bl br) : ∀ i,
    e1Idx s p bl i = ((List.range br.length).filter fun j : Nat =>
      br[j]?.any fun l => decide (Dipole s p l)).map (· + i) := by
  induction h with
  | nil => intro i; rfl
  | @cons l r bl br hlr _ ih =>
    intro i
    have hrec : (((List.range br.length).map Nat.succ).filter fun j : Nat =>
        (r :: br)[j]?.any fun l => decide (Dipole s p l)).map (· + i) = e1Idx s p bl (i + 1) := by
      rw [ih (i + 1), List.filter_map, List.map_map]
      simp only [Function.comp_def, List.getElem?_cons_succ]
      refine List.map_congr_left ?_
      intro j _
      omega
    rw [List.length_cons, List.range_succ_eq_map, List.filter_cons]
    simp only [List.getElem?_cons_zero]
    unfold e1Idx
    rw [hlr.1, hlr.2]
    by_cases hz : s = 0 ∧ r.spin2 = 0
    · rw [if_pos hz, if_neg (by simp [Dipole, ZeroZero, hz]), ← hrec]
    · rw [if_neg hz]
      by_cases hp : r.parity ≠ p ∧ djump r.spin2 s ≤ 1
      · rw [if_pos hp, if_pos (by
          have := (djump_le_one r.spin2 s).mp hp.2
          simp [Dipole, ZeroZero, hp.1, this]
          tauto), List.map_cons, hrec]
        simp
      · rw [if_neg hp, if_neg (by
          rw [Option.any_some, decide_eq_true_eq]
          rintro ⟨_, h1, h2⟩
          exact hp ⟨h1, (djump_le_one _ _).mpr h2⟩), ← hrec]

theorem dmin_spec (s : Int) {bl : List (Level K)} {br : List (Raw K)} (h : Alike bl br) : ∀ dm,
    dmin s bl dm ≤ dm ∧
    (∀ (j : Nat) (x : Raw K), br[j]? = some x → ¬ ZeroZero s x.spin2 → dmin s bl dm ≤ distance s x) ∧
    (dmin s bl dm = dm ∨ ∃ (j : Nat) (x : Raw K), br[j]? = some x ∧ ¬ ZeroZero s x.spin2 ∧
      dmin s bl dm = distance s x) := by
  induction h with
  | nil => intro dm; simp [dmin]
  | @cons l r bl br hlr _ ih =>
    intro dm
    unfold dmin
    rw [hlr.1]
    by_cases hz : s = 0 ∧ r.spin2 = 0
    · rw [if_pos hz]
      obtain ⟨a, b, c⟩ := ih dm
      refine ⟨a, ?_, ?_⟩
      · intro j x hx hn
        cases j with
        | zero => simp at hx; subst hx; exact absurd hz hn
        | succ j => exact b j x (by simpa using hx) hn
      · rcases c with c | ⟨j, x, hx, hn, e⟩
        · exact .inl c
        · exact .inr ⟨j + 1, x, by simpa using hx, hn, e⟩
    · rw [if_neg hz]
      obtain ⟨a, b, c⟩ := ih (min dm (djump r.spin2 s))
      have hd : djump r.spin2 s = distance s r := rfl
      refine ⟨a.trans (min_le_left _ _), ?_, ?_⟩
      · intro j x hx hn
        cases j with
        | zero => simp at hx; subst hx; exact a.trans ((min_le_right _ _).trans hd.le)
        | succ j => exact b j x (by simpa using hx) hn
      · rcases c with c | ⟨j, x, hx, hn, e⟩
        · rw [c]
          rcases min_choice dm (djump r.spin2 s) with hm | hm
          · exact .inl hm
          · exact .inr ⟨0, r, rfl, hz, by rw [hm]; rfl⟩
        · exact .inr ⟨j + 1, x, by simpa using hx, hn, e⟩

theorem nearIdx_spec (s dm : Int) {bl : List (Level K)} {br : List (Raw K)} (h : Alike bl br) : ∀ i,
    match nearIdx s dm bl i with
    | none => ∀ (j : Nat) (x : Raw K), br[j]? = some x → ¬ ZeroZero s x.spin2 → distance s x ≠ dm
    | some d => ∃ e x, d = i + e ∧ br[e]? = some x ∧ ¬ ZeroZero s x.spin2 ∧ distance s x = dm ∧
        ∀ (j : Nat) (y : Raw K), j < e → br[j]? = some y → ¬ ZeroZero s y.spin2 → distance s y ≠ dm := by
  induction h with
  | nil => intro i; simp [nearIdx]
  | @cons l r bl br hlr _ ih =>
    intro i
    have ih' := ih (i + 1)
    have skip : (¬ ZeroZero s r.spin2 → distance s r ≠ dm) →
        match nearIdx s dm bl (i + 1) with
        | none => ∀ (j : Nat) (x : Raw K), (r :: br)[j]? = some x → ¬ ZeroZero s x.spin2 → distance s x ≠ dm
        | some d => ∃ e x, d = i + e ∧ (r :: br)[e]? = some x ∧ ¬ ZeroZero s x.spin2 ∧ distance s x = dm ∧
            ∀ (j : Nat) (y : Raw K), j < e → (r :: br)[j]? = some y → ¬ ZeroZero s y.spin2 →
              distance s y ≠ dm := by
      intro hr
      cases hn : nearIdx s dm bl (i + 1) with
      | none =>
        rw [hn] at ih'
        intro j x hx hz
        cases j with
        | zero => simp at hx; subst hx; exact hr hz
        | succ j => exact ih' j x (by simpa using hx) hz
      | some d =>
        rw [hn] at ih'
        obtain ⟨e, x, hd, hx, hz, he, hmin⟩ := ih'
        refine ⟨e + 1, x, by omega, by simpa using hx, hz, he, ?_⟩
        intro j y hj hy hz'
        cases j with
        | zero => simp at hy; subst hy; exact hr hz'
        | succ j => exact hmin j y (by omega) (by simpa using hy) hz'
    unfold nearIdx
    rw [hlr.1]
    by_cases hz : s = 0 ∧ r.spin2 = 0
    · rw [if_pos hz]; exact skip (fun h => absurd hz h)
    · rw [if_neg hz]
      by_cases hd : djump r.spin2 s = dm
      · rw [if_pos hd]
        exact ⟨0, r, by simp, rfl, hz, hd, by intro j y hj; omega⟩
      · rw [if_neg hd]; exact skip (fun _ => hd)

theorem chosen_daughters (mb : Nat) (r : Raw K) {bl : List (Level K)} {br : List (Raw K)} (h : Alike bl br) :
    Daughters mb r br (chosen mb br.length r.spin2 r.parity bl) := by
  unfold Daughters chosen
  by_cases h1 : br.length = 1
  · rw [if_pos h1, if_pos h1]
  · rw [if_neg h1, if_neg h1]
    have he := e1Idx_eq r.spin2 r.parity h 0
    simp only [Nat.add_zero, List.map_id'] at he
    simp only []
    rw [← he]
    by_cases hE : e1Idx r.spin2 r.parity bl 0 = []
    · rw [if_neg (not_not.mpr hE), if_neg (not_not.mpr hE)]
      obtain ⟨a, b, c⟩ := dmin_spec r.spin2 h 100
      have hn := nearIdx_spec r.spin2 (dmin r.spin2 bl 100) h 0
      cases hc : nearIdx r.spin2 (dmin r.spin2 bl 100) bl 0 with
      | none =>
        rw [hc] at hn
        refine .inr ⟨?_, rfl⟩
        rintro ⟨d, l, hl, hz, h100, _⟩
        rcases c with c | ⟨j, x, hx, hzx, e⟩
        · have := b d l hl hz
          exact hn d l hl hz (le_antisymm (by rw [c]; exact h100) this)
        · exact hn j x hx hzx e.symm
      | some d =>
        rw [hc] at hn
        obtain ⟨e, x, hd, hx, hz, hdx, hmin⟩ := hn
        refine .inl ⟨d, ⟨x, by rw [hd]; simpa using hx, hz, by rw [hdx]; exact a, ?_⟩, rfl⟩
        intro j y hy hzy
        refine ⟨by rw [hdx]; exact b j y hy hzy, ?_⟩
        intro hj
        rw [hdx]
        exact lt_of_le_of_ne (b j y hy hzy) (hmin j y (by omega) hy hzy).symm
    · rw [if_pos hE, if_pos hE]

/-! ### Reading a nucleus -/

theorem readLevel_spec (mb : Nat) (hmb : 2 ≤ mb) (i : Nat) (r : Raw K) (lev : List (Level K))
    (br : List (Raw K)) (hi : i < lev.length) (hbr : br.length = i) (h : Alike (lev.take i) br) :
    ∃ l, readLevel mb i r lev = .ok (lev.set i l) ∧ MadeFrom mb br r l := by
  unfold readLevel
  rw [writeAt_nat _ _ _ hi]
  simp only [Res.bind]
  have hset : (lev.set i (bare r))[i]? = some (bare r) := by simp [hi]
  have htake : (lev.set i (bare r)).take i = lev.take i := by simp [List.take_set_of_le]
  have hlen : i < (lev.set i (bare r)).length := by simpa using hi
  unfold transitions
  by_cases hg : r.gammas = []
  · rw [hg]
    simp only [List.length_nil, if_true]
    obtain ⟨arr, n, h1, u, h2, h3⟩ := fix_normalise mb hmb i (lev.set i (bare r)) (bare r) hset
    rw [h1]
    simp only []
    rw [h2]
    simp only []
    rw [writeAt_nat _ _ _ hlen, List.set_set]
    refine ⟨_, rfl, rfl, rfl, rfl, rfl, fun h0 => absurd hg h0, fun _ => ?_⟩
    rw [htake] at h3
    refine ⟨chosen mb i (bare r).spin2 (bare r).parity (lev.take i), ?_, h3⟩
    have := chosen_daughters mb r h
    rw [hbr] at this
    exact this
  · rw [if_neg (by simpa using hg)]
    simp only []
    obtain ⟨u, h2, h3⟩ := listed_normalise mb r.gammas hg
    rw [h2]
    simp only []
    rw [writeAt_nat _ _ _ hlen, List.set_set]
    exact ⟨_, rfl, rfl, rfl, rfl, rfl, fun _ => h3, fun h0 => absurd h0 hg⟩

theorem readLevels_spec (mb : Nat) (hmb : 2 ≤ mb) (rest : List (Raw K)) :
    ∀ (done : List (Raw K)) (lev : List (Level K)), lev.length = (done ++ rest).length →
      (∀ (j : Nat) (r : Raw K) (l : Level K), j < done.length → (done ++ rest)[j]? = some r → lev[j]? = some l →
        MadeFrom mb ((done ++ rest).take j) r l) →
      ∃ lev', readLevels mb rest done.length lev = .ok lev' ∧ NucleusFrom mb (done ++ rest) lev' := by
  induction rest with
  | nil =>
    intro done lev hl hm
    refine ⟨lev, rfl, hl, ?_⟩
    intro i r l hr hl'
    have hi : i < done.length := by
      by_contra hc
      rw [List.getElem?_eq_none (by simpa using hc)] at hr; cases hr
    exact hm i r l hi hr hl'
  | cons r rest ih =>
    intro done lev hl hm
    have hlt : done.length < lev.length := by rw [hl]; simp
    have hbr : ((done ++ r :: rest).take done.length) = done := by simp
    have hal : Alike (lev.take done.length) done := by
      unfold Alike
      rw [List.forall₂_iff_get]
      refine ⟨by simp; omega, ?_⟩
      intro j hj1 hj2
      have hjl : j < lev.length := by omega
      have h1 : (done ++ r :: rest)[j]? = some done[j] := by
        rw [List.getElem?_append_left hj2]; simp [hj2]
      have h2 : lev[j]? = some lev[j] := List.getElem?_eq_getElem hjl
      have := hm j _ _ hj2 h1 h2
      simp only [List.get_eq_getElem, List.getElem_take]
      exact ⟨this.2.1, this.2.2.1⟩
    obtain ⟨l, h1, h2⟩ := readLevel_spec mb hmb done.length r lev done hlt rfl hal
    unfold readLevels
    rw [h1]
    simp only [Res.bind]
    have := ih (done ++ [r]) (lev.set done.length l) (by simp [hl]) (by
      intro j r' l' hj hr' hl'
      simp only [List.append_assoc, List.singleton_append] at hr' ⊢
      simp only [List.length_append, List.length_cons, List.length_nil] at hj
      by_cases hjd : j = done.length
      · subst hjd
        rw [List.getElem?_set_self hlt] at hl'
        cases hl'
        rw [List.getElem?_append_right (le_refl _)] at hr'
        simp at hr'
        subst hr'
        rw [hbr]
        exact h2
      · rw [List.getElem?_set_ne (Ne.symm hjd)] at hl'
        exact hm j r' l' (by omega) hr' hl')
    simpa using this

theorem readNucleus_spec (mb : Nat) (hmb : 2 ≤ mb) (rs : List (Raw K)) :
    ∃ ls, readNucleus mb rs = .ok ls ∧ NucleusFrom mb rs ls := by
  have := readLevels_spec mb hmb rs [] (List.replicate rs.length fresh) (by simp) (by simp)
  unfold readNucleus
  simpa using this

/-! ### Reading the file -/

theorem readFile_spec (mb ml : Nat) (hmb : 2 ≤ mb) (rest : List (Int × List (Raw K))) :
    ∀ (done : List (Int × List (Raw K))) (db : DB K), db.zaid.length = db.levels.length →
      (done ++ rest).length ≤ db.zaid.length →
      (∀ e ∈ rest, e.2.length < ml) →
      (∀ (j : Nat) (e : Int × List (Raw K)), j < done.length → (done ++ rest)[j]? = some e →
        db.zaid[j]? = some e.1 ∧ ∃ ls, db.levels[j]? = some ls ∧ NucleusFrom mb e.2 ls) →
      ∃ db', readFile mb ml rest done.length db = .ok db' ∧ db'.zaid.length = db.zaid.length ∧
        db'.levels.length = db.levels.length ∧
        (∀ (j : Nat) (e : Int × List (Raw K)), (done ++ rest)[j]? = some e →
          db'.zaid[j]? = some e.1 ∧ ∃ ls, db'.levels[j]? = some ls ∧ NucleusFrom mb e.2 ls) ∧
        (∀ j, (done ++ rest).length ≤ j → db'.zaid[j]? = db.zaid[j]?) := by
  induction rest with
  | nil =>
    intro done db he hl _ hm
    refine ⟨db, rfl, rfl, rfl, ?_, fun _ _ => rfl⟩
    intro j e hj
    have hi : j < done.length := by
      by_contra hc
      rw [List.getElem?_eq_none (by simpa using hc)] at hj; cases hj
    exact hm j e hi hj
  | cons x rest ih =>
    intro done db he hl hml hm
    obtain ⟨z, rs⟩ := x
    have hlt : done.length < db.zaid.length := by
      have : done.length < (done ++ (z, rs) :: rest).length := by simp
      omega
    obtain ⟨ls, hn1, hn2⟩ := readNucleus_spec mb hmb rs
    unfold readFile
    rw [if_neg (by have := hml (z, rs) (by simp); simp only at this; omega), writeAt_nat _ _ _ hlt]
    simp only [Res.bind]
    rw [hn1]
    simp only []
    rw [writeAt_nat _ _ _ (by omega)]
    simp only []
    have := ih (done ++ [(z, rs)]) ⟨db.zaid.set done.length z, db.levels.set done.length ls⟩
      (by simpa using he) (by simpa using hl) (fun e he => hml e (by simp [he])) (by
        intro j e hj hje
        simp only [List.append_assoc, List.singleton_append] at hje
        simp only [List.length_append, List.length_cons, List.length_nil] at hj
        by_cases hjd : j = done.length
        · subst hjd
          rw [List.getElem?_append_right (le_refl _)] at hje
          simp at hje
          subst hje
          exact ⟨by simp [hlt], ls, by rw [List.getElem?_set_self (by omega)], hn2⟩
        · simp only []
          rw [List.getElem?_set_ne (Ne.symm hjd), List.getElem?_set_ne (Ne.symm hjd)]
          exact hm j e (by omega) hje)
    obtain ⟨db', a1, a2, a3, a4, a5⟩ := this
    refine ⟨db', by simpa using a1, by simpa using a2, by simpa using a3, by simpa using a4, ?_⟩
    intro j hj
    rw [a5 j (by simpa using hj)]
    simp only []
    rw [List.getElem?_set_ne]
    simp at hj
    omega

/-! ### Looking up a nucleus -/

theorem search_ok {zs : List Int} {z : Int} {i : Nat} :
    search zs z = .ok i ↔ zs[i]? = some z ∧ ∀ j, j < i → zs[j]? ≠ some z := by
  induction zs generalizing i with
  | nil => simp [search]
  | cons a zs ih =>
    unfold search
    by_cases ha : a = z
    · rw [if_pos ha]
      constructor
      · intro h; cases h; exact ⟨by simp [ha], by intro j hj; omega⟩
      · rintro ⟨h1, h2⟩
        cases i with
        | zero => rfl
        | succ i => exact absurd (by simp [ha]) (h2 0 (by omega))
    · rw [if_neg ha]
      cases hs : search zs z with
      | ok k =>
        have hk := ih.mp hs
        simp only [Res.bind]
        constructor
        · intro h
          cases h
          refine ⟨by simpa using hk.1, ?_⟩
          intro j hj
          cases j with
          | zero => simpa using ha
          | succ j => simpa using hk.2 j (by omega)
        · rintro ⟨h1, h2⟩
          cases i with
          | zero => simp at h1; exact absurd h1 ha
          | succ i =>
            have : search zs z = .ok i := ih.mpr ⟨by simpa using h1, fun j hj => by
              simpa using h2 (j + 1) (by omega)⟩
            rw [hs] at this
            cases this; rfl
      | _ =>
        simp only [Res.bind]
        constructor
        · intro h; cases h
        · rintro ⟨h1, h2⟩
          cases i with
          | zero => simp at h1; exact absurd h1 ha
          | succ i =>
            have : search zs z = .ok i := ih.mpr ⟨by simpa using h1, fun j hj => by
              simpa using h2 (j + 1) (by omega)⟩
            rw [hs] at this
            cases this

theorem search_ub {zs : List Int} {z : Int} (h : z ∉ zs) : search zs z = .ub := by
  induction zs with
  | nil => rfl
  | cons a zs ih =>
    simp only [List.mem_cons, not_or] at h
    unfold search
    rw [if_neg (Ne.symm h.1), ih h.2]; rfl

/-! ### Filling in spins and parities -/

/-- Running sum of the spin weights. -/
theorem spinScan_spec (w : Nat → K) (r : K) (f : Nat) : ∀ j s,
    match spinScan w r f j s with
    | some k => j ≤ k ∧ k < j + f ∧ r < s + ((List.range (k + 1 - j)).map fun i : Nat => w (j + i)).sum ∧
        ∀ m, m ≤ k → j < m → s + ((List.range (m - j)).map fun i : Nat => w (j + i)).sum ≤ r
    | none => ∀ m, j < m → m ≤ j + f → s + ((List.range (m - j)).map fun i : Nat => w (j + i)).sum ≤ r := by
  induction f with
  | zero => intro j s; simp only [spinScan]; intro m h1 h2; omega
  | succ f ih =>
    intro j s
    have key : ∀ m, j + 1 ≤ m → s + ((List.range (m - j)).map fun i : Nat => w (j + i)).sum
        = s + w j + ((List.range (m - (j + 1))).map fun i : Nat => w (j + 1 + i)).sum := by
      intro m hm
      obtain ⟨q, rfl⟩ : ∃ q, m = j + 1 + q := ⟨m - (j + 1), by omega⟩
      rw [show j + 1 + q - j = q + 1 by omega, show j + 1 + q - (j + 1) = q by omega,
        List.range_succ_eq_map, List.map_cons, List.sum_cons, List.map_map]
      simp only [Function.comp_def, Nat.add_zero, Nat.succ_eq_add_one, ← add_assoc]
      congr 3
      funext i
      congr 1
      omega
    unfold spinScan
    by_cases hr : r < s + w j
    · rw [if_pos hr]
      refine ⟨le_refl _, by omega, ?_, by intro m h1 h2; omega⟩
      rw [key (j + 1) (le_refl _)]
      simpa using hr
    · rw [if_neg hr]
      have hle := not_lt.mp hr
      have := ih (j + 1) (s + w j)
      cases hs : spinScan w r f (j + 1) (s + w j) with
      | some k =>
        rw [hs] at this
        obtain ⟨h1, h2, h3, h4⟩ := this
        refine ⟨by omega, by omega, ?_, ?_⟩
        · rw [key (k + 1) (by omega)]; exact h3
        · intro m hm hj
          rw [key m (by omega)]
          by_cases hm1 : m = j + 1
          · subst hm1; simpa using hle
          · exact h4 m hm (by omega)
      | none =>
        rw [hs] at this
        intro m hj hm
        rw [key m (by omega)]
        by_cases hm1 : m = j + 1
        · subst hm1; simpa using hle
        · exact this m (by omega) (by omega)

end CGMF.Ripl
