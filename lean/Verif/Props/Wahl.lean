import Verif.Proofs.Wahl
import Mathlib.Data.Rat.Floor
import Mathlib.Analysis.SpecialFunctions.ExpDeriv

/-!
# C47: the charge model of complementary fragments

`Model/Wahl.lean` is the code (`ZDistribution`), `Spec/Wahl.lean` the published formulas in terms of the heavier
fragment. `compute` returns the arrays of most probable charges, widths and odd-even factors.
-/

namespace CGMF.Props

open CGMF CGMF.Spec CGMF.Wahl

set_option linter.unusedSectionVars false

variable {K : Type} [Field K] [LinearOrder K] [IsStrictOrderedRing K] [FloorRing K]

/-- The parameters after the check of the width at symmetry (3993-3995). -/
def checked (p : Zp K) : Zp K := if p.sigz50 ≤ 0 then { p with sigz50 := p.sigz140 } else p

theorem config_p (p : Zp K) (b : Bounds K) (af : Int) : (config p b af).p = checked p := by
  unfold config checked; rfl

theorem compute_ok {t : Tab K} {exp : K → K} {numa : Nat} {zf af : Int} {pe : K} {lo hi dZ : Int} {ch : Charge K}
    (h : compute t exp numa zf af pe lo hi dZ = .ok ch) : ∃ b s, bounds (params t exp zf af pe) zf af = .ok b ∧ af ≠ 0 ∧
      regions (config (params t exp zf af pe) b af) (hi - lo + 1).toNat lo (List.replicate numa ⟨0, 0, 0, 0⟩) = .ok s ∧
      ch.z0 = outZ lo hi s (fun e a => (zf : K) / af * a + e.delz) ∧ ch.sz0 = outZ lo hi s (fun e _ => e.sigz) ∧
      ch.fzz0 = outZ lo hi s (fun e _ => e.fz) ∧ ch.fnz0 = outZ lo hi s (fun e _ => e.fn) := by
  unfold compute at h
  rw [Res.bind_iff] at h
  obtain ⟨b, hb, h⟩ := h
  split at h
  · cases h
  rename_i haf
  rw [Res.bind_iff] at h
  obtain ⟨s, hs, h⟩ := h
  simp only [] at h
  rw [Res.bind_iff] at h
  obtain ⟨zl, _, h⟩ := h
  rw [Res.bind_iff] at h
  obtain ⟨zh, _, h⟩ := h
  simp only [Res.ok.injEq] at h
  subst h
  exact ⟨b, s, hb, haf, hs, rfl, rfl, rfl, rfl⟩

/-- **C47.** Whenever the mass bounds are in the order that the code tests, the parameters returned for every mass
of the range are those of the published formulas; no value of the older method, which the routines assign first,
survives. Only the width at a mass exactly equal to the boundary `Bb` is excepted. -/
theorem C47_formula (t : Tab K) (exp : K → K) (numa : Nat) (zf af : Int) (pe : K) (lo hi dZ : Int) (ch : Charge K)
    (h0 : 0 ≤ lo) (h : compute t exp numa zf af pe lo hi dZ = .ok ch) (b : Bounds K)
    (hb : bounds (params t exp zf af pe) zf af = .ok b) (hs : Sorted b) (A : Nat) (h1 : lo ≤ A) (h2 : (A : Int) ≤ hi) :
    let w := wahl (checked (params t exp zf af pe)) b.bb b.b4 b.b5 b.b6 af (A : K)
    ch.z0[A]? = some ((zf : K) / af * A + w.delz) ∧ ch.fzz0[A]? = some w.fz ∧ ch.fnz0[A]? = some w.fn ∧
      ((A : K) ≠ b.bb → ch.sz0[A]? = some w.sigz) := by
  intro w
  obtain ⟨b', s, hb', _, hr, e1, e2, e3, e4⟩ := compute_ok h
  rw [hb] at hb'
  cases hb'
  have hm := bounds_made hb
  obtain ⟨_, hent⟩ := regions_entry hs hm h0 hr
  have he := hent A h1 (by omega)
  rw [config_p] at he
  rw [e1, e2, e3, e4, outZ_get lo hi s _ A h1 h2, outZ_get lo hi s _ A h1 h2, outZ_get lo hi s _ A h1 h2,
    outZ_get lo hi s _ A h1 h2, he]
  simp only [Int.cast_natCast, Option.map_some]
  obtain ⟨l1, l2⟩ := ba_lt hs hm
  have q5 := hs.hb4; have q6 := hs.h45; have q7 := hs.h56
  by_cases hA : (A : K) = b.bb
  · rw [if_pos hA]
    have hw : w = ⟨(checked (params t exp zf af pe)).delzmax, (checked (params t exp zf af pe)).sigz50, 1, 1⟩ := by
      show wahl _ _ _ _ _ _ _ = _
      unfold wahl heavy
      rw [hA, if_pos (by linarith), if_neg (by linarith), if_neg (by linarith), if_neg (by linarith), if_pos le_rfl]
      simp
    rw [hw]
    exact ⟨rfl, rfl, rfl, fun hc => absurd hA hc⟩
  · rw [if_neg hA]
    exact ⟨rfl, rfl, rfl, fun _ => rfl⟩

/-- **C47.** The charge model treats the two fragments of a pair consistently: for complementary masses the most
probable charges add up to the charge of the fissioning nucleus, and the odd-even factors and (away from the
boundary `Bb`) the widths are equal. -/
theorem C47_complementary (t : Tab K) (exp : K → K) (numa : Nat) (zf af : Int) (pe : K) (lo hi dZ : Int) (ch : Charge K)
    (h0 : 0 ≤ lo) (h : compute t exp numa zf af pe lo hi dZ = .ok ch) (b : Bounds K)
    (hb : bounds (params t exp zf af pe) zf af = .ok b) (hs : Sorted b) (A B : Nat) (hAB : (A : Int) + B = af)
    (h1 : lo ≤ A) (h2 : (A : Int) ≤ hi) (h3 : lo ≤ B) (h4 : (B : Int) ≤ hi) :
    ∃ zA zB f g : K, ch.z0[A]? = some zA ∧ ch.z0[B]? = some zB ∧ zA + zB = zf ∧
      ch.fzz0[A]? = some f ∧ ch.fzz0[B]? = some f ∧ ch.fnz0[A]? = some g ∧ ch.fnz0[B]? = some g ∧
      ((A : K) ≠ b.bb → (B : K) ≠ b.bb → ∃ s, ch.sz0[A]? = some s ∧ ch.sz0[B]? = some s) := by
  obtain ⟨a1, a2, a3, a4⟩ := C47_formula t exp numa zf af pe lo hi dZ ch h0 h b hb hs A h1 h2
  obtain ⟨b1, b2, b3, b4⟩ := C47_formula t exp numa zf af pe lo hi dZ ch h0 h b hb hs B h3 h4
  obtain ⟨_, _, _, haf, _⟩ := compute_ok h
  have hafK : (af : K) ≠ 0 := by exact_mod_cast haf
  have hcast : (A : K) + B = af := by exact_mod_cast congrArg (Int.cast : Int → K) hAB
  have hbb := (ba_lt hs (bounds_made hb)).2
  generalize checked (params t exp zf af pe) = p at *
  -- the two entries mirror each other
  have mir : (wahl p b.bb b.b4 b.b5 b.b6 af (B : K)).delz = -(wahl p b.bb b.b4 b.b5 b.b6 af (A : K)).delz ∧
      (wahl p b.bb b.b4 b.b5 b.b6 af (B : K)).sigz = (wahl p b.bb b.b4 b.b5 b.b6 af (A : K)).sigz ∧
      (wahl p b.bb b.b4 b.b5 b.b6 af (B : K)).fz = (wahl p b.bb b.b4 b.b5 b.b6 af (A : K)).fz ∧
      (wahl p b.bb b.b4 b.b5 b.b6 af (B : K)).fn = (wahl p b.bb b.b4 b.b5 b.b6 af (A : K)).fn := by
    have eA : (af : K) - A = B := by linarith
    have eB : (af : K) - B = A := by linarith
    by_cases x : (af : K) ≤ 2 * A <;> by_cases y : (af : K) ≤ 2 * B
    · have : (A : K) = B := by linarith
      rw [this]
      refine ⟨?_, rfl, rfl, rfl⟩
      unfold wahl
      rw [if_pos y]
      have z : (2 : K) * B = af := by linarith
      unfold heavy
      have q5 := hs.hb4; have q6 := hs.h45; have q7 := hs.h56
      rw [if_neg (by linarith), if_neg (by linarith), if_neg (by linarith), if_neg (by linarith)]
      simp only []
      rw [z]
      simp
    · unfold wahl
      rw [if_pos x, if_neg y, eB]
      exact ⟨rfl, rfl, rfl, rfl⟩
    · unfold wahl
      rw [if_neg x, if_pos y, eA]
      refine ⟨?_, rfl, rfl, rfl⟩
      simp
    · exfalso
      linarith
  obtain ⟨m1, m2, m3, m4⟩ := mir
  refine ⟨_, _, _, _, a1, b1, ?_, a2, by rw [b2, m3], a3, by rw [b3, m4], ?_⟩
  · rw [m1]
    have : (zf : K) / af * A + (zf : K) / af * B = zf := by
      rw [← mul_add, hcast]
      field_simp
    linarith
  · intro hA hB
    exact ⟨_, a4 hA, by rw [b4 hB, m2]⟩

/-- **C47.** With the bounds in order the computation is defined: no access outside the arrays, for every mass range
inside them. -/
theorem C47_defined (t : Tab K) (exp : K → K) (numa : Nat) (zf af : Int) (pe : K) (lo hi dZ : Int) (b : Bounds K)
    (hb : bounds (params t exp zf af pe) zf af = .ok b) (hs : Sorted b) (haf : 0 < af) (hn : af < numa) (h0 : 0 ≤ lo)
    (hlo : lo ≤ hi) (hhi : hi < numa) : ∃ ch, compute t exp numa zf af pe lo hi dZ = .ok ch := by
  have hm := bounds_made hb
  obtain ⟨s, hr⟩ := regions_run (p := params t exp zf af pe) hs hm (hi - lo + 1).toNat lo
    (List.replicate numa ⟨0, 0, 0, 0⟩) h0 (by simp; omega) (by simp; omega)
  have hl := (regions_entry hs hm h0 hr).1
  rw [List.length_replicate] at hl
  unfold compute
  rw [hb]
  simp only [Res.bind]
  rw [if_neg (by omega), hr]
  simp only []
  have hz : (outZ lo hi s (fun e a => (zf : K) / af * a + e.delz)).length = numa := by
    unfold outZ; simp [hl]
  obtain ⟨zl, r1⟩ := read_run (outZ lo hi s (fun e a => (zf : K) / af * a + e.delz)) lo h0 (by omega)
  obtain ⟨zh, r2⟩ := read_run (outZ lo hi s (fun e a => (zf : K) / af * a + e.delz)) hi (by omega) (by omega)
  rw [r1]
  simp only []
  rw [r2]
  exact ⟨_, rfl⟩

/-- **C47**, the limits of the charge at the two ends of the mass range: `dZ` units around the integer nearest to the most
probable charge there. -/
theorem C47_limits (t : Tab K) (exp : K → K) (numa : Nat) (zf af : Int) (pe : K) (lo hi dZ : Int) (ch : Charge K)
    (h0 : 0 ≤ lo) (hlo : lo ≤ hi) (h : compute t exp numa zf af pe lo hi dZ = .ok ch) :
    ∃ zl zh : K, ch.z0[lo.toNat]? = some zl ∧ ch.z0[hi.toNat]? = some zh ∧
      ((ch.zmin + dZ : Int) : K) ≤ zl + 1 / 2 ∧ zl - 1 / 2 < ((ch.zmin + dZ : Int) : K) ∧
      ((ch.zmax - dZ : Int) : K) ≤ zh + 1 / 2 ∧ zh - 1 / 2 < ((ch.zmax - dZ : Int) : K) := by
  unfold compute at h
  obtain ⟨b, -, h⟩ := Res.bind_eq_ok.mp h
  split at h
  · cases h
  · obtain ⟨s, -, h⟩ := Res.bind_eq_ok.mp h
    obtain ⟨zl, h1, h⟩ := Res.bind_eq_ok.mp h
    obtain ⟨zh, h2, h⟩ := Res.bind_eq_ok.mp h
    cases h
    have key : ∀ (xs : List K) (i : Int) (x : K), readAt xs i = .ok x → xs[i.toNat]? = some x := by
      intro xs i x hx
      unfold readAt at hx
      split at hx
      · rename_i hi
        cases hx
        exact List.getElem?_eq_getElem hi.2
      · cases hx
    refine ⟨zl, zh, key _ _ _ h1, key _ _ _ h2, ?_, ?_, ?_, ?_⟩
    · rw [sub_add_cancel]
      exact Int.floor_le _
    · rw [sub_add_cancel]
      have := Int.lt_floor_add_one (zl + 1 / 2)
      linarith
    · rw [add_sub_cancel_right]
      exact Int.floor_le _
    · rw [add_sub_cancel_right]
      have := Int.lt_floor_add_one (zh + 1 / 2)
      linarith

theorem continuous_eq17 (zf af : Int) (c : List ℝ) : Continuous fun pe : ℝ => eq17 zf af pe c := by
  unfold eq17
  split
  · fun_prop
  · exact continuous_const

theorem continuous_eq19 (zf : Int) (c : List ℝ) : Continuous fun pe : ℝ => eq19 Real.exp zf pe c := by
  unfold eq19
  split
  · fun_prop
  · exact continuous_const

/-- **C47**, energy dependence: all fifteen parameters are continuous functions of the excitation energy, across the two limits
of 8 and 20 MeV as well.  The high-energy coefficients of `FnSL`, which the interpolation puts in the wrong formula, must vanish,
as those of the constructor do. -/
theorem C47_energy (t : Tab ℝ) (hf : t.high.fnSL = [0, 0, 0, 0, 0]) (zf af : Int) (f : Zp ℝ → ℝ)
    (h : f ∈ [Zp.sigz140, Zp.delz140, Zp.fz140, Zp.fn140, Zp.sigzSL, Zp.delzSL, Zp.fzSL, Zp.fnSL, Zp.sl50, Zp.sigz50, Zp.delzmax,
      Zp.sigzSLW, Zp.delzSLW, Zp.fzSLW, Zp.fnSLW]) : Continuous fun pe : ℝ => f (params t Real.exp zf af pe) := by
  have main : ∀ cl chh : List ℝ, Continuous fun pe : ℝ => if 20 ≤ pe then eq19 Real.exp zf pe chh else
      if 8 ≤ pe then (1 - (pe - 8) / 12) * eq17 zf af 8 cl + (pe - 8) / 12 * eq19 Real.exp zf 20 chh else eq17 zf af pe cl := by
    intro cl chh
    refine Continuous.if_le (continuous_eq19 zf chh) (Continuous.if_le (by fun_prop) (continuous_eq17 zf af cl) continuous_const
      continuous_id ?_) continuous_const continuous_id ?_
    · intro x hx
      rw [← hx]
      norm_num
    · intro x hx
      rw [← hx]
      norm_num
  have hz : eq17 zf af (20 : ℝ) t.high.fnSL = eq19 Real.exp zf 20 t.high.fnSL := by
    rw [hf]
    simp [eq17, eq19]
  have pull : ∀ (g : Zp ℝ → ℝ) (pe : ℝ), g (params t Real.exp zf af pe) = if 20 ≤ pe then g (t.highAt Real.exp zf pe) else
      if 8 ≤ pe then g (Zp.zip (fun a b => (1 - (pe - 8) / 12) * a + (pe - 8) / 12 * b) (t.lowAt zf af 8) (t.highMid Real.exp zf af 20))
      else g (t.lowAt zf af pe) := by
    intro g pe
    unfold params
    split
    · rfl
    · split <;> rfl
  simp only [pull]
  simp only [List.mem_cons, List.not_mem_nil, or_false] at h
  rcases h with rfl | rfl | rfl | rfl | rfl | rfl | rfl | rfl | rfl | rfl | rfl | rfl | rfl | rfl | rfl
  · exact main t.low.sigz140 t.high.sigz140
  · exact main t.low.delz140 t.high.delz140
  · exact main t.low.fz140 t.high.fz140
  · exact main t.low.fn140 t.high.fn140
  · exact main t.low.sigzSL t.high.sigzSL
  · exact main t.low.delzSL t.high.delzSL
  · exact main t.low.fzSL t.high.fzSL
  · have := main t.low.fnSL t.high.fnSL
    rw [← hz] at this
    exact this
  · exact main t.low.sl50 t.high.sl50
  · exact main t.low.sigz50 t.high.sigz50
  · exact main t.low.delzmax t.high.delzmax
  · exact main t.low.sigzSLW t.high.sigzSLW
  · exact main t.low.delzSLW t.high.delzSLW
  · exact main t.low.fzSLW t.high.fzSLW
  · exact main t.low.fnSLW t.high.fnSLW

/-- The low-energy coefficients of the constructor (3441-3471), and a high-energy set. -/
def exTab : Tab ℚ :=
  { low := ⟨[566 / 1000, 0, 64 / 10000, 109 / 10000, 0], [-487 / 1000, 0, 180 / 10000, 0, -203 / 100000],
      [1207 / 1000, 0, -420 / 10000, 0, 22 / 10000], [1076 / 1000, 0, 0, 0, 0], [-38 / 10000, 0, 0, 0, 0],
      [-80 / 10000, 0, 0, 0, 0], [30 / 10000, 0, 0, 0, 0], [-6 / 10000, 0, 0, 0, 0], [191 / 1000, 0, -76 / 10000, 0, 0],
      [356 / 1000, 60 / 1000, 0, 0, 0], [699 / 1000, 0, 0, 0, 0], [-45 / 1000, 94 / 10000, 0, 0, 0],
      [0, -45 / 10000, 0, 0, 0], [159 / 1000, -28 / 1000, 0, 0, 0], [39 / 1000, 0, 0, 0, 0]⟩
    high := ⟨[542 / 1000, 1310 / 1000, 33 / 1000, 0, -5 / 1000], [-428 / 1000, 0, 0, 164 / 1000, -116 / 10000],
      [1, 0, 0, 0, 0], [1, 0, 0, 0, 0], [0, 0, 0, 0, 0], [0, 0, 0, 0, 0], [0, 0, 0, 0, 0], [0, 0, 0, 0, 0],
      [191 / 1000, 0, -76 / 10000, 0, 0], [542 / 1000, 1310 / 1000, 33 / 1000, 0, -5 / 1000], [0, 0, 0, 0, 0],
      [0, 0, 0, 0, 0], [0, 0, 0, 0, 0], [0, 0, 0, 0, 0], [0, 0, 0, 0, 0]⟩ }

/-- The bounds of 236-U at the excitation energy of thermal fission are in order, and the charges of the masses 96
and 140 add up to 92. -/
example : (match bounds (params exTab (fun _ => 1) 92 236 (6545 / 1000)) 92 236,
      compute exTab (fun _ => 1) 300 92 236 (6545 / 1000) 90 146 5 with
    | .ok b, .ok ch => decide (b.b1 < b.b2 ∧ b.b2 < b.b3 ∧ b.b3 < b.ba ∧ b.ba < b.bb ∧ b.bb < b.b4 ∧ b.b4 < b.b5 ∧
        b.b5 < b.b6 ∧ ch.z0.getD 96 0 + ch.z0.getD 140 0 = 92 ∧ ch.sz0.getD 96 0 = ch.sz0.getD 140 0 ∧
        ch.z0.getD 96 0 ≠ 92 * 96 / 236 ∧ 0 < ch.sz0.getD 96 0)
    | _, _ => false) = true := by decide +kernel

/-- The high-energy coefficients of `FnSL` vanish in the table above, as `C47_energy` asks. -/
example : exTab.high.fnSL = [0, 0, 0, 0, 0] ∧ params exTab (fun _ => 1) 92 236 8 = exTab.lowAt 92 236 8 := by decide +kernel

/-- Limits for the masses 90 to 146 of 236-U. -/
example : (match compute exTab (fun _ => 1) 300 92 236 (6545 / 1000) 90 146 5 with
    | .ok ch => decide (ch.zmin = 31 ∧ ch.zmax = 61)
    | _ => false) = true := by decide +kernel

end CGMF.Props
