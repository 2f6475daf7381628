import Verif.Model.CgmRange
import Verif.Proofs.Grid
import Verif.Props.CgmApi
import Verif.Props.Mixed
import Verif.Tactics
import Mathlib.Algebra.Field.Rat
import Mathlib.Algebra.Order.Ring.Rat
import Mathlib.Data.Rat.Floor

/-!
# C143: requests out of range in the interface for one nucleus
-/

namespace CGMF.Props

open CGMF.MC CGMF.Grid CGMF.HF CGMF.Mixed CGMF.CgmRange CGMF.CgmApi

section
variable {K : Type} [Field K] [LinearOrder K] [IsStrictOrderedRing K] [FloorRing K]

theorem countOpen_not_ub (tb : Tables K) (hm : ∀ z a, tb.mx z a ≠ .ub) (z : Int) : ∀ (fuel : Nat) (a : Int) (e : K), countOpen tb z fuel a e ≠ .ub := by
  intro fuel
  induction fuel with
  | zero => intro a e; simp [countOpen]
  | succ fuel ih =>
    intro a e
    unfold countOpen
    cases h1 : tb.mx z (a - 1) with
    | ub => exact absurd h1 (hm _ _)
    | exit => exact fun h => by cases h
    | ok m1 =>
      cases h0 : tb.mx z a with
      | ub => exact absurd h0 (hm _ _)
      | exit => exact fun h => by cases h
      | ok m0 =>
        show (if e - (m1 + tb.en - m0) ≤ 0 then Res.ok 0 else (countOpen tb z fuel (a - 1) (e - (m1 + tb.en - m0))).bind fun n => .ok (n + 1)) ≠ .ub
        split_ifs
        · exact fun h => by cases h
        · cases h : countOpen tb z fuel (a - 1) (e - (m1 + tb.en - m0)) with
          | ub => exact absurd h (ih _ _)
          | exit => exact fun h => by cases h
          | ok n => exact fun h => by cases h

theorem masses_not_ub (tb : Tables K) (hm : ∀ z a, tb.mx z a ≠ .ub) (z : Int) : ∀ (n : Nat) (a : Int),
    masses tb z n a = .exit ∨ ∃ m ms, masses tb z n a = .ok (m :: ms) := by
  intro n
  induction n with
  | zero =>
    intro a
    unfold masses
    cases h : tb.mx z a with
    | ub => exact absurd h (hm _ _)
    | exit => exact .inl rfl
    | ok m => exact .inr ⟨m, [], rfl⟩
  | succ n ih =>
    intro a
    unfold masses
    cases h : tb.mx z a with
    | ub => exact absurd h (hm _ _)
    | exit => exact .inl rfl
    | ok m =>
      rcases ih (a - 1) with e | ⟨m', ms, e⟩
      · left; show (masses tb z n (a - 1)).bind _ = _; rw [e]; rfl
      · right; exact ⟨m, m' :: ms, by show (masses tb z n (a - 1)).bind _ = _; rw [e]; rfl⟩

theorem initLoop_cons (tb : Tables K) (stale : Nat → K) (z : Int) (m : K) (ms : List K) (i : Nat) (a : Int) (e : K) :
    ∃ n ns, initLoop tb stale z (m :: ms) i a e = n :: ns := by
  cases ms with
  | nil => exact ⟨_, _, rfl⟩
  | cons m' ms => exact ⟨_, _, rfl⟩

theorem setup_high {w : K} (hw : 0 < w) (N : Nat) (el : K) {E : K} (hE : w * ((N : K) - 1 / 2) ≤ E) : setup w N el E = .exit := by
  unfold setup firstAbove
  have : (List.range N).find? (fun k => decide (E < binEnergy w k)) = none := by
    rw [List.find?_eq_none]
    intro k hk
    rw [List.mem_range] at hk
    rw [decide_eq_true_eq, not_lt, binEnergy_eq]
    refine le_trans ?_ hE
    have : (k : K) + 1 ≤ N := by exact_mod_cast hk
    have : (k : K) + 1 / 2 ≤ (N : K) - 1 / 2 := by linarith
    exact mul_le_mul_of_nonneg_left this hw.le
  rw [this]
  rfl

variable (tb : Tables K) (ld : Int → Int → Res Unit) (par : Par K) (st : MC.St K) (stale : Nat → K) (pop : List (Nuc K) → K → List (K × K)) (c : Const K)

/-- **C143.**  An energy too high for the mesh (124.975 MeV with 2500 bins of 0.05 MeV) stops the process, for every nucleus and all
random numbers. -/
theorem C143_high (hm : ∀ z a, tb.mx z a ≠ .ub) (hc : 0 < tb.maxc) (hw : 0 < par.w) (isotope : Int) (E : K)
    (hE : par.w * ((par.nbin : K) - 1 / 2) ≤ E) (s : List K) : call tb ld par st stale pop c isotope E s = .exit := by
  unfold call
  cases h1 : totalNeutrons tb (split isotope).1 (split isotope).2 E with
  | ub =>
    exfalso
    unfold totalNeutrons at h1
    have h2 := countOpen_not_ub tb hm (split isotope).1 10 (split isotope).2 E
    cases h : countOpen tb (split isotope).1 10 (split isotope).2 E with
    | ub => exact h2 h
    | exit => rw [h] at h1; cases h1
    | ok n => rw [h] at h1; cases h1
  | exit => rfl
  | ok n =>
    have hn : n < tb.maxc := by
      unfold totalNeutrons at h1
      cases h : countOpen tb (split isotope).1 10 (split isotope).2 E with
      | ub => rw [h] at h1; cases h1
      | exit => rw [h] at h1; cases h1
      | ok k =>
        rw [h] at h1
        have : (if tb.maxc ≤ k then tb.maxc - 1 else k) = n := by injection h1
        split_ifs at this <;> omega
    rw [Rnd.bind_run]
    show (Rnd.lift (initSystem tb stale (split isotope).1 (split isotope).2 n E) >>= _) s = _
    unfold initSystem
    rw [if_neg (not_le.2 hn)]
    rcases masses_not_ub tb hm (split isotope).1 n (split isotope).2 with e | ⟨m, ms, e⟩
    · rw [e]; rfl
    · rw [e]
      obtain ⟨x, xs, hx⟩ := initLoop_cons tb stale (split isotope).1 m ms 0 (split isotope).2 E
      show (Rnd.lift (Res.ok (initLoop tb stale (split isotope).1 (m :: ms) 0 (split isotope).2 E)) >>= _) s = _
      rw [hx, Rnd.bind_run]
      show (Rnd.lift (meshes par.w par.nbin ld (energies stale (x :: xs) 0 E)) >>= _) s = _
      have : meshes par.w par.nbin ld (energies stale (x :: xs) 0 E) = .exit := by
        show (setup par.w par.nbin (elmax x.levels) E).bind _ = _
        rw [setup_high hw _ _ hE]; rfl
      rw [this]; rfl

/-- **C143.**  A nucleus without a mass stops the process. -/
theorem C143_missing (isotope : Int) (E : K) (s : List K)
    (h : tb.mx (split isotope).1 ((split isotope).2 - 1) = .exit ∨
      (∃ m, tb.mx (split isotope).1 ((split isotope).2 - 1) = .ok m) ∧ tb.mx (split isotope).1 (split isotope).2 = .exit) :
    call tb ld par st stale pop c isotope E s = .exit := by
  have : totalNeutrons tb (split isotope).1 (split isotope).2 E = .exit := by
    unfold totalNeutrons countOpen
    rcases h with h | ⟨⟨m, h1⟩, h⟩
    · rw [h]; rfl
    · rw [h1, h]; rfl
  unfold call
  rw [this]; rfl

theorem nearest_zero {E : K} (hE : E ≤ 0) : ∀ (ls : List (Level K)) (i : Nat) (d : K), (∀ l ∈ ls, 0 ≤ l.energy) → d ≤ |E| →
    nearest E ls i d 0 = 0 := by
  intro ls
  induction ls with
  | nil => intro i d _ _; rfl
  | cons l ls ih =>
    intro i d hl hd
    have h0 := hl l (by simp)
    have : ¬ |E - l.energy| < d := by
      rw [not_lt]
      refine hd.trans ?_
      rw [abs_of_nonpos hE, abs_of_nonpos (by linarith)]
      linarith
    rw [nearest, if_neg this]
    exact ih _ _ (fun l h => hl l (by simp [h])) hd

/-- One photon gives one line. -/
theorem one_line {N cap : Nat} {eps low de : K} (hc : Consts eps low de) (e : K) (he : de / 2 ≤ e)
    (heN : e < ((N : K) - 1 / 2 - eps) * de) (m : MCPoint K) (hcap : 0 < cap) :
    ∃ y, cgm N cap eps low de [⟨.gamma, e, m⟩] = .ok ([y], []) ∧ |y - e| ≤ de / 2 + eps * de := by
  obtain ⟨k, hk, hb⟩ := exists_bin hc.eps0 hc.de0 hc.half hc.de1 he heN
  have hr : InRange N eps de [⟨.gamma, e, m⟩] := by
    intro h hh
    have h0 : 0 ≤ e := le_trans (by have := hc.de0; positivity) he
    rw [List.mem_singleton] at hh
    rw [hh]; exact ⟨h0, heN⟩
  refine ⟨(k : K) * de, ?_, hb.close hc.de0 hc.eps0⟩
  rw [C102_lines hc _ hr]
  have e1 : ((List.range N).filter fun k => decide (∃ h ∈ [(⟨.gamma, e, m⟩ : Hist K)], h.id ≠ .neutron ∧ InBin eps de k h.ep)) = [k] := by
    have : (List.range N).filter (fun k => decide (∃ h ∈ [(⟨.gamma, e, m⟩ : Hist K)], h.id ≠ .neutron ∧ InBin eps de k h.ep))
        = (List.range N).filter (fun i => decide (i = k)) := by
      apply List.filter_congr
      intro i _
      rw [decide_eq_decide]
      constructor
      · rintro ⟨h, hh, _, hb'⟩
        rw [List.mem_singleton] at hh
        rw [hh] at hb'
        exact InBin.unique hc.de0 hb' hb
      · rintro rfl
        exact ⟨_, List.mem_cons_self .., by simp, hb⟩
    rw [this]
    have hp : ((List.range N).filter (fun i => decide (i = k))).Perm [k] := by
      rw [List.perm_ext_iff_of_nodup (List.Nodup.filter _ List.nodup_range) (List.nodup_singleton k)]
      intro i
      simp only [List.mem_filter, List.mem_range, decide_eq_true_eq, List.mem_singleton]
      constructor
      · exact fun h => h.2
      · rintro rfl; exact ⟨hk, rfl⟩
    exact List.perm_singleton.mp hp
  have e2 : ((List.range N).filter fun k => decide (∃ h ∈ [(⟨.gamma, e, m⟩ : Hist K)], h.id = .neutron ∧ InBin eps de k h.ep)) = [] := by
    rw [List.filter_eq_nil_iff]
    intro i _
    simp
  rw [e1, e2]
  obtain ⟨c, rfl⟩ : ∃ c, cap = c + 1 := ⟨cap - 1, by omega⟩
  simp

/-- **C143 refuted.**  A request with an energy of zero or below, which the range check would refuse, is answered with a photon:
for every nucleus whose first excited level decays to the ground state by one photon, the photon of this level is returned, whatever
`Z` and `A`. -/
theorem C143_refuted (hc : 0 < tb.maxc) (hw : 0 < par.w) (hN : 0 < par.nbin) (hcap : 1 < par.cap) (hts : st.ts ≠ [])
    (k : Consts c.eps c.low c.de) (hcap' : 0 < c.cap) (isotope : Int) (m m' : K) (hm : tb.mx (split isotope).1 (split isotope).2 = .ok m)
    (hm' : tb.mx (split isotope).1 ((split isotope).2 - 1) = .ok m') (hsn : 0 ≤ m' + tb.en - m)
    (hld : ld (split isotope).1 (split isotope).2 = .ok ()) (g l : Level K) (ls : List (Level K))
    (hl : tb.levels (split isotope).1 (split isotope).2 = g :: l :: ls) (hg : g.energy = 0) (hls : ∀ x ∈ l :: ls, 0 < x.energy)
    (hb : l.branches = [⟨0, 1, 1⟩]) (ht : ¬ 0 < l.halflife) (hwin : ¬ 0 < par.window)
    (he : c.de / 2 ≤ l.energy) (heN : l.energy < ((c.N : K) - 1 / 2 - c.eps) * c.de)
    (E : K) (hE : E ≤ 0) (r x : K) (hr : r ≤ 1) (hx : x ≤ 1) (s : List K) :
    checkRange par.nbin par.w (split isotope).1 (split isotope).2 E = false ∧
    ∃ y, call tb ld par st stale pop c isotope E (r :: x :: s) = .ok (([y], []), s) ∧ |y - l.energy| ≤ c.de / 2 + c.eps * c.de := by
  refine ⟨by simp [checkRange, hE], ?_⟩
  obtain ⟨y, hy, hd⟩ := one_line k l.energy he heN (levelPoint 0 1 l) hcap'
  refine ⟨y, ?_, hd⟩
  have h1 : totalNeutrons tb (split isotope).1 (split isotope).2 E = .ok 0 := by
    unfold totalNeutrons countOpen
    rw [hm, hm']
    have : (E - (m' + tb.en - m) ≤ 0) := by linarith
    show (if E - (m' + tb.en - m) ≤ 0 then Res.ok 0 else _ : Res Nat).bind _ = _
    rw [if_pos this]
    show Res.ok (if tb.maxc ≤ 0 then tb.maxc - 1 else 0) = _
    rw [if_neg (by omega)]
  set n0 : Nuc K := ⟨(split isotope).1, (split isotope).2, g :: l :: ls, 0, false, 1⟩ with hn0
  have h2 : initSystem tb stale (split isotope).1 (split isotope).2 0 E = .ok [n0] := by
    unfold initSystem masses
    rw [if_neg (by omega), hm, hn0, ← hl]
    rfl
  have hel : 0 < elmax (g :: l :: ls) := by
    unfold elmax
    rw [List.getLast?_cons_cons]
    cases h : (l :: ls).getLast? with
    | none => simp at h
    | some z => exact hls z (List.mem_of_getLast? h)
  have h3 : setup par.w par.nbin (elmax n0.levels) E = .ok ⟨1, 0, excOf par.w E 1⟩ := by
    unfold setup firstAbove
    have : (List.range par.nbin).find? (fun k => decide (E < binEnergy par.w k)) = some 0 := by
      obtain ⟨N, hN⟩ : ∃ N, par.nbin = N + 1 := ⟨par.nbin - 1, by omega⟩
      rw [hN, List.range_succ_eq_map, List.find?_cons_of_pos]
      rw [decide_eq_true_eq, binEnergy_eq]
      have : 0 < par.w * (((0 : Nat) : K) + 1 / 2) := by positivity
      linarith
    rw [this]
    show Res.ok _ = _
    have hc0 : ncontOf E (elmax n0.levels) (0 + 1) (excOf par.w E (0 + 1)) = 0 := by
      unfold ncontOf
      rw [if_neg hel.ne', if_neg (not_lt.2 (hE.trans hel.le))]
    rw [hc0]
  have h4 : meshes par.w par.nbin ld (energies stale [n0] 0 E) = .ok () := by
    show (setup par.w par.nbin (elmax n0.levels) E).bind _ = _
    rw [h3]
    show (ld (split isotope).1 (split isotope).2).bind _ = _
    rw [hld]; rfl
  have h5 : startLevel n0 ⟨1, 0, excOf par.w E 1⟩ E = 1 := by
    unfold startLevel
    rw [if_neg (by simp [hn0])]
    have : n0.levels.dropLast = g :: (l :: ls).dropLast := by rw [hn0]; rfl
    rw [this, nearest]
    have hpos : ∀ z ∈ (l :: ls).dropLast, 0 ≤ z.energy := fun z hz => (hls z (List.mem_of_mem_dropLast hz)).le
    split_ifs with hlt
    · rw [hg, sub_zero, nearest_zero hE _ _ _ hpos le_rfl]
    · rw [hg, sub_zero, not_lt] at hlt
      rw [nearest_zero hE _ _ _ hpos hlt]
  have h6 : cascade { par with chain := [n0] } 0 1 { st with hs := [] } (r :: x :: s) =
      .ok ((0, { st with hs := [⟨.gamma, l.energy, levelPoint 0 1 l⟩], ts := st.ts.set 0 0 }), s) := by
    have hts' : 0 < st.ts.length := List.length_pos_of_ne_nil hts
    unfold cascade
    show cascadeLoop _ 0 (g :: l :: ls) ((r :: x :: s).length + 1) 1 0 _ (r :: x :: s) = _
    rw [cascadeLoop, if_neg (by omega)]
    have p1 : pickBranch r l.branches = some ⟨0, 1, 1⟩ := by
      rw [hb]
      show (if r ≤ 0 + 1 then some (⟨0, 1, 1⟩ : Branch K) else none) = _
      rw [if_pos (by linarith)]
    simp only [Rnd.bind_run, Rnd.get, List.getElem?_cons_succ, List.getElem?_cons_zero, stay, if_neg ht, Rnd.pure_run, hwin, false_and, if_false,
      Rnd.draw, p1, Rnd.lift, writeAt, List.length_nil, Nat.cast_zero, Int.toNat_zero, le_refl, hts', and_self, if_true, store, levelPoint,
      not_lt.2 hx, decide_false, Nat.le_zero, Nat.zero_add, List.nil_append]
    rw [if_neg (by omega)]
    simp only [Rnd.bind_run, Rnd.get, List.getElem?_cons_zero, hg, sub_zero, if_true, Bool.false_eq_true, if_false]
    rw [if_neg (by omega)]
    rfl
  unfold call
  rw [h1, Rnd.bind_run]
  show (Rnd.lift (initSystem tb stale (split isotope).1 (split isotope).2 0 E) >>= _) _ = _
  rw [h2, Rnd.bind_run]
  show (Rnd.lift (meshes par.w par.nbin ld (energies stale [n0] 0 E)) >>= _) _ = _
  rw [h4, Rnd.bind_run]
  show (singleDecay { par with chain := [n0] } st (pop [n0] E) E >>= _) _ = _
  have h7 : singleDecay { par with chain := [n0] } st (pop [n0] E) E (r :: x :: s) = .ok ([⟨.gamma, l.energy, levelPoint 0 1 l⟩], s) := by
    unfold singleDecay
    rw [Rnd.bind_run]
    show (Rnd.lift (setup par.w par.nbin (elmax n0.levels) E) >>= _) _ = _
    rw [h3, Rnd.bind_run]
    show (cascade { par with chain := [n0] } 0 (startLevel n0 ⟨1, 0, excOf par.w E 1⟩ E) { st with hs := [] } >>= _) _ = _
    rw [h5, Rnd.bind_run, h6]
    rfl
  rw [Rnd.bind_run, h7]
  show Rnd.lift (CgmApi.cgm c.N c.cap c.eps c.low c.de [⟨.gamma, l.energy, levelPoint 0 1 l⟩]) s = _
  rw [hy]
  rfl

end

namespace RangeDemo

/-- Masses, with a neutron separation energy of 8 MeV, and a level at 3 MeV above a ground state; no mass from `Z` = 100 on. -/
def tb : Tables ℚ := ⟨fun z _ => if z < 100 then .ok 0 else .exit, 8, fun _ _ => [⟨0, 0, 1, 0, []⟩, ⟨3, 4, 1, 0, [⟨0, 1, 1⟩]⟩], 10⟩

/-- Parameters of the level density are there. -/
def ld : Int → Int → Res Unit := fun _ _ => .ok ()

/-- The request. -/
def ask (isotope : Int) (E : ℚ) : Rnd ℚ (List ℚ × List ℚ) := call tb ld { Demo.par with window := -1 } Demo.st (fun _ => 0) (fun _ _ => []) MixedDemo.con isotope E

end RangeDemo

open RangeDemo in
/-- A nucleus with `Z` = 3 and an energy of -5 MeV: refused by the check, answered with a photon of 3 MeV. -/
example : checkRange 2500 (1 / 20 : ℚ) 3 8 (-5) = false ∧ ask 3008 (-5) [1 / 2, 1 / 2] = .ok (([3], []), []) := by
  constructor <;> decide +kernel

open RangeDemo in
/-- The theorem at this case. -/
example : ∃ y, ask 3008 (-5) [1 / 2, 1 / 2, 7] = .ok (([y], []), [7]) ∧ |y - 3| ≤ MixedDemo.con.de / 2 + MixedDemo.con.eps * MixedDemo.con.de :=
  (C143_refuted tb ld { Demo.par with window := -1 } Demo.st (fun _ => 0) (fun _ _ => []) MixedDemo.con (by decide) (by decide +kernel) (by decide +kernel) (by decide +kernel)
    (by decide +kernel) ⟨by norm_num [MixedDemo.con], by norm_num [MixedDemo.con], by norm_num [MixedDemo.con], by norm_num [MixedDemo.con],
      by norm_num [MixedDemo.con], by norm_num [MixedDemo.con]⟩ (by decide) 3008 0 0 rfl rfl (by norm_num [tb]) rfl ⟨0, 0, 1, 0, []⟩ ⟨3, 4, 1, 0, [⟨0, 1, 1⟩]⟩ [] rfl rfl
    (by simp) rfl (by simp) (by decide +kernel) (by norm_num [MixedDemo.con]) (by norm_num [MixedDemo.con]) (-5) (by norm_num) (1 / 2) (1 / 2)
    (by norm_num) (by norm_num) [7]).2

open RangeDemo in
/-- Too high an energy and a nucleus without a mass. -/
example : ask 50132 1000 [] = .exit ∧ ask 110280 5 [] = .exit := by
  constructor <;> decide +kernel

end CGMF.Props
