import Verif.Proofs.Fragments
import Verif.Props.Prefission
import Mathlib.Data.Rat.Floor

/-!
# C06, C42, C43: pairs of fragments

Readable from the statements with `Model/Fragments.lean`: `generate` produces a list of events (`e.1` the
fissioning nucleus, `e.2` the pair `p`, its excitation energies, total and individual kinetic energies),
`shareRT` is the iteration that shares the excitation energy and `lookup` the table of level density
parameters.
-/

namespace CGMF.Props

open CGMF CGMF.Pre CGMF.Frag

set_option linter.unusedSectionVars false

variable {K : Type} [Field K] [LinearOrder K] [IsStrictOrderedRing K] [FloorRing K] {M : Type}

/-- What every event of a run satisfies, gathered once. -/
theorem run_event {amu : K} {mass : Int → Int → Res K} {en : K} {sf : Bool} {c0 : Comp K} {num : Rnd K Int}
    {left : Int → Rnd K K} {build : Int → Comp K → Rnd K (Tab K × Env K M)} {fuel N : Nat} {s s' : List K} {n : Int}
    {es : List (Comp K × Frags K M)} (h : run amu mass en sf c0 num left build fuel N s = .ok ((n, es), s')) :
    (∃ s1, num s = .ok (n, s1)) ∧ es.length = N ∧ ∀ e ∈ es, ∃ (ex : K) (t : Tab K) (v : Env K M),
      shift mass en sf c0 n ex = .ok e.1 ∧ (∃ s1 s2 : List K, build n e.1 s1 = .ok ((t, v), s2)) ∧
      (∃ s1 s2 : List K, sample v amu t fuel c0.ac e.1 s1 = .ok (e.2, s2)) ∧ e.2.x.ul ≠ 0 ∧ e.2.x.uh ≠ 0 := by
  unfold run at h
  rw [Rnd.bind_ok] at h; obtain ⟨m, s1, h0, h⟩ := h
  rw [Rnd.bind_ok] at h; obtain ⟨es', s2, h1, h⟩ := h
  rw [Rnd.pure_ok] at h
  obtain ⟨h, _⟩ := h
  simp only [Prod.mk.injEq] at h
  obtain ⟨rfl, rfl⟩ := h
  obtain ⟨hl, he⟩ := generate_ok N h1
  refine ⟨⟨s1, h0⟩, hl, ?_⟩
  intro e hm
  obtain ⟨_, _, h1⟩ := he e hm
  obtain ⟨t, v, ⟨_, _, h2⟩, h3, h4, h5⟩ := event_ok fuel h1
  unfold construct at h2
  rw [Rnd.bind_ok] at h2; obtain ⟨ex, _, _, h2⟩ := h2
  rw [Rnd.bind_ok] at h2; obtain ⟨c, _, h6, h2⟩ := h2
  rw [Rnd.bind_ok] at h2; obtain ⟨b, _, h7, h2⟩ := h2
  rw [Rnd.pure_ok] at h2
  obtain ⟨h2, _⟩ := h2
  simp only [Prod.mk.injEq] at h2
  obtain ⟨rfl, rfl, rfl⟩ := h2
  exact ⟨ex, _, _, (Rnd.lift_ok.mp h6).1, ⟨_, _, h7⟩, h3, h4, h5⟩

/-- **C06.** In every event of every run the mass numbers of the two fragments and the number `n` of
pre-fission neutrons drawn for the run (not counted for spontaneous fission) add up to the mass number of the
initial nucleus, the charges to its charge, and the light fragment is not heavier than the heavy one; for any
yield tables, any routine building them and any random numbers. The run has the requested number of events. -/
theorem C06_conservation (amu : K) (mass : Int → Int → Res K) (en : K) (sf : Bool) (c0 : Comp K)
    (num : Rnd K Int) (left : Int → Rnd K K) (build : Int → Comp K → Rnd K (Tab K × Env K M)) (fuel N : Nat)
    (s s' : List K) (n : Int) (es : List (Comp K × Frags K M))
    (h : run amu mass en sf c0 num left build fuel N s = .ok ((n, es), s')) :
    (∃ s1, num s = .ok (n, s1)) ∧ es.length = N ∧ ∀ e ∈ es,
      e.2.p.al + e.2.p.ah + (if sf then 0 else n) = c0.ac ∧ e.2.p.zl + e.2.p.zh = c0.zc ∧ e.2.p.al ≤ e.2.p.ah := by
  obtain ⟨hn, hl, he⟩ := run_event h
  refine ⟨hn, hl, ?_⟩
  intro e hm
  obtain ⟨ex, t, v, h5, _, ⟨_, _, h3⟩, _, _⟩ := he e hm
  obtain ⟨z1, z2, z3⟩ := C51_nucleus mass en sf c0 e.1 n ex h5
  obtain ⟨⟨_, _, h7⟩, _⟩ := sample_ok h3
  obtain ⟨iA, iZ, z, _, _, h8⟩ := pair_ok h7
  obtain ⟨a1, a2, a3⟩ := assign_sum e.1.ac e.1.zc iA iZ ⌊z + 1 / 2⌋
  rw [← h8] at a1 a2 a3
  refine ⟨?_, by rw [a2, z1], a3⟩
  rw [a1]
  cases sf with
  | true => rw [z2 rfl]; simp
  | false => rw [(z3 rfl).1]; simp

/-- Tables of the examples: masses 3 to 5 of a nucleus of mass 8 or 7, one charge on either side. -/
def pairTab : Tab ℚ := ⟨3, 5, 1, 1, [0, 0, 0, 1 / 2, 1, 1 / 2], List.replicate 3 [0, 0, 0, 1, 1, 1], [0, 0, 0, 1, 1, 1],
  [0, 0, 0, 1, 2, 3]⟩

/-- A stand-in for the exponential. -/
def pairExp (x : ℚ) : ℚ := 1 / (1 + x * x)

def pairEnv (o : Sharing ℚ) : Env ℚ Unit :=
  ⟨fun _ => .ok 1, fun _ _ => .ok 0, fun _ _ => .ok 1, 1 / 100, o, pairExp, 2, fun _ _ _ => .ok 1, fun _ => pure 10,
    fun _ _ _ => pure ()⟩

/-- A run of the examples: initial nucleus of charge 4 and mass 8, mass excess 20. -/
def pairRun (o : Sharing ℚ) (sf : Bool) (N : Nat) : Rnd ℚ (Int × List (Comp ℚ × Frags ℚ Unit)) :=
  run 1 (fun _ a => .ok (a * 2)) 3 sf ⟨4, 8, 20, 5, 1⟩ (pure 1) (fun _ => pure 9) (fun _ _ => pure (pairTab, pairEnv o)) 3 N

/-- Random numbers: mass, height, charge, height, two spins with heights, two parities. -/
def pairDraws (a : ℚ) : List ℚ := [a, 0, 1 / 2, 0, 0, 0, 0, 0, 3 / 4, 1 / 4]

def pairList (x : Out ((Int × List (Comp ℚ × Frags ℚ Unit)) × List ℚ)) : Option (Int × List Pair) :=
  match x with
  | .ok ((n, es), _) => some (n, es.map (fun e => e.2.p))
  | _ => none

example : pairList (pairRun (.rt fun _ => 1) false 2 (pairDraws (1 / 6) ++ pairDraws (5 / 6))) =
    some (1, [⟨3, 1, 4, 3⟩, ⟨2, 1, 5, 3⟩]) := by decide +kernel

example : pairList (pairRun (.rt fun _ => 1) true 1 (pairDraws (5 / 6))) = some (1, [⟨3, 1, 5, 3⟩]) := by decide +kernel

/-! ## C42 -/

/-- **C42.** In every event of every run: the total excitation energy available was not negative, both
fragments are excited and have a spin and a parity; with a temperature-ratio sharing rule the kinetic energy
and the two excitation energies add up exactly to the energy released by the nucleus at fission, where `ml`
and `mh` are the tabulated mass excesses. The kinetic energies add up to the total one and give the fragments equal and
opposite momenta (`Ml*kel = Mh*keh`), provided the masses do not add up to zero. -/
theorem C42_balance_partial (amu : K) (mass : Int → Int → Res K) (en : K) (sf : Bool) (c0 : Comp K)
    (num : Rnd K Int) (left : Int → Rnd K K) (build : Int → Comp K → Rnd K (Tab K × Env K M)) (fuel N : Nat)
    (s s' : List K) (n : Int) (es : List (Comp K × Frags K M))
    (h : run amu mass en sf c0 num left build fuel N s = .ok ((n, es), s')) (e : Comp K × Frags K M) (he : e ∈ es) :
    ∃ (t : Tab K) (v : Env K M) (ml mh : K), (∃ s1 s2 : List K, build n e.1 s1 = .ok ((t, v), s2)) ∧
      v.mass (1000 * e.2.p.zl + e.2.p.al) = .ok ml ∧ v.mass (1000 * e.2.p.zh + e.2.p.ah) = .ok mh ∧
      e.2.tke ≤ e.1.mx + e.1.einc + e.1.sn - ml - mh ∧ e.2.x.ul ≠ 0 ∧ e.2.x.uh ≠ 0 ∧ e.2.x.spins.isSome ∧
      (∀ ratio, v.opt = .rt ratio → e.2.tke + e.2.x.ul + e.2.x.uh = e.1.mx + e.1.einc + e.1.sn - ml - mh) ∧
      ∃ xl xh : K, v.mtab e.2.p.zl e.2.p.al = .ok xl ∧ v.mtab e.2.p.zh e.2.p.ah = .ok xh ∧
        (e.2.p.al * amu + xl + (e.2.p.ah * amu + xh) ≠ 0 → e.2.kel + e.2.keh = e.2.tke ∧
          (e.2.p.al * amu + xl) * e.2.kel = (e.2.p.ah * amu + xh) * e.2.keh) := by
  obtain ⟨_, _, hall⟩ := run_event h
  obtain ⟨ex, t, v, _, hb, ⟨_, _, h3⟩, hul, huh⟩ := hall e he
  obtain ⟨_, ⟨_, _, h4⟩, _, xl, xh, x1, x2, x3⟩ := sample_ok h3
  obtain ⟨ml, mh, _, _, m1, m2, h5⟩ := initial_ok h4
  refine ⟨t, v, ml, mh, hb, m1, m2, ?_⟩
  rcases excite_ok h5 with ⟨_, h6⟩ | ⟨h6, h7, h8, _⟩
  · simp only [] at h6
    rw [h6] at hul
    exact absurd rfl hul
  · refine ⟨by linarith, hul, huh, h8, ?_, xl, xh, x1, x2, ?_⟩
    · intro ratio hr
      rw [hr] at h7
      obtain ⟨_, _, _, _, _, _, _, g, _⟩ := shareRT_ok h7
      simp only [] at g
      rw [g]; ring
    · intro hne
      simp only [kinetic, Prod.mk.injEq] at x3
      rw [x3.1, x3.2]
      constructor
      · rw [← add_div, div_eq_iff hne]; ring
      · rw [mul_div_assoc', mul_div_assoc']
        congr 1
        ring

/-- Excess of kinetic plus excitation energies over the energy released, event by event. -/
def pairExcess (x : Out ((Int × List (Comp ℚ × Frags ℚ Unit)) × List ℚ)) : Option (List ℚ) :=
  match x with
  | .ok ((_, es), _) =>
    some (es.map (fun e => e.2.tke + e.2.x.ul + e.2.x.uh - (e.1.mx + e.1.einc + e.1.sn - 1 - 1)))
  | _ => none

example : pairExcess (pairRun (.rt fun _ => 2) false 2 (pairDraws (1 / 6) ++ pairDraws (5 / 6))) = some [0, 0] := by
  decide +kernel

/-- **C42**, sharing by maximal entropy: the collective energy is subtracted and not given to either fragment,
so that the two excitation energies add up to `txe - ucoll` (or both are zero when the weights vanish). -/
theorem C42_entropy (grid : List K) (wgt : K → K → K) (ucoll txe : K) :
    (shareEnt grid wgt ucoll txe = (0, 0)) ∨
      (shareEnt grid wgt ucoll txe).1 + (shareEnt grid wgt ucoll txe).2 = txe - ucoll := by
  unfold shareEnt
  simp only []
  split
  · exact Or.inl rfl
  · exact Or.inr (by simp only []; ring)

/-- **C42**, negation for that rule: an event of a run whose energies fall short of the energy released. -/
theorem C42_entropy_refuted : ∃ (o : Sharing ℚ) (s : List ℚ), pairExcess (pairRun o false 1 s) = some [-11 / 2] :=
  ⟨.entropy [1, 2, 3] (fun _ _ _ => 1) (fun _ x => x / 2), pairDraws (1 / 6), by decide +kernel⟩

/-- **C42**, any other sharing option stops the process as soon as a pair with non-negative excitation energy is met. -/
theorem C42_unknown_option (v : Env K M) (hv : v.opt = .other) (fuel : Nat) (p : Pair) (txe q : K) (h : 0 ≤ txe)
    (s : List K) : excite v fuel p txe q s = .exit := by
  unfold excite
  rw [if_neg (not_lt.mpr h), hv, Rnd.bind_run]
  rfl

example : pairList (pairRun .other false 1 (pairDraws (1 / 6))) = none := by decide +kernel

/-! ## C43 -/

/-- **C43**, on termination: the energies add up to the total, and their ratio is
`rt^2` times the ratio of level density parameters `a`, `b` found in the tables, where `a` differs by at
most `tol` from the parameter at the energy returned. With positive parameters neither energy is negative. -/
theorem C43_result (ldpl ldph : K → Res K) (rt txe tol : K) (fuel : Nat) (u : K × K)
    (h : shareRT ldpl ldph rt txe tol fuel = .ok u) :
    u.1 + u.2 = txe ∧ ∃ a b a' : K, u.1 * b = rt * rt * a * u.2 ∧ ldpl u.1 = .ok a' ∧ |a' - a| ≤ tol ∧
      (∃ x, ldpl x = .ok a) ∧ (∃ y, ldph y = .ok b) ∧
      ((∀ x y, ldpl x = .ok y → 0 < y) → (∀ x y, ldph x = .ok y → 0 < y) → 0 ≤ txe → 0 ≤ u.1 ∧ 0 ≤ u.2) := by
  obtain ⟨a, b, a', x, y, h1, h2, h3, h4, h5, h6, h7⟩ := shareRT_ok h
  refine ⟨by rw [h3]; ring, a, b, a', ?_, h4, h5, ⟨x, h6⟩, ⟨y, h7⟩, ?_⟩
  · rw [h3, h2]
    have : b / (a * rt * rt + b) * (a * rt * rt + b) = b := div_mul_cancel₀ b h1
    have e : b / (a * rt * rt + b) * (a * rt * rt) = b - b / (a * rt * rt + b) * b := by
      rw [eq_sub_iff_add_eq, ← mul_add]; exact this
    calc (txe - b / (a * rt * rt + b) * txe) * b = (b - b / (a * rt * rt + b) * b) * txe := by ring
      _ = b / (a * rt * rt + b) * (a * rt * rt) * txe := by rw [e]
      _ = _ := by ring
  · intro g1 g2 g3
    have pa := g1 _ _ h6
    have pb := g2 _ _ h7
    have q0 : 0 ≤ a * rt * rt := by rw [mul_assoc]; exact mul_nonneg pa.le (mul_self_nonneg rt)
    have q1 : 0 < a * rt * rt + b := by linarith
    have q2 : 0 ≤ b / (a * rt * rt + b) := div_nonneg pb.le q1.le
    have q3 : b / (a * rt * rt + b) ≤ 1 := (div_le_one q1).mpr (by linarith)
    have q4 := mul_le_mul_of_nonneg_right q3 g3
    constructor
    · rw [h3, h2]; linarith
    · rw [h2]; exact mul_nonneg q2 g3

/-- Level density parameter of the examples: rises with the energy. -/
def pairLdp (e : ℚ) : Res ℚ := .ok (1 + e / 4)

example : (match shareRT pairLdp (fun _ => .ok 2) 1 3 (1 / 100) 6 with
    | .ok u => decide (u.1 + u.2 = 3 ∧ 0 < u.1 ∧ u.1 < u.2)
    | _ => false) = true := by decide +kernel

/-- One pass moves the light energy up when the light parameter goes up and the heavy one down. -/
theorem pass_mono {rt txe a b a' b' : K} (ha : 0 < a) (hb' : 0 < b') (haa : a ≤ a') (hbb : b' ≤ b) (ht : 0 ≤ txe) :
    b' / (a' * rt * rt + b') * txe ≤ b / (a * rt * rt + b) * txe := by
  apply mul_le_mul_of_nonneg_right _ ht
  have hr : 0 ≤ rt * rt := mul_self_nonneg rt
  have hb : 0 < b := lt_of_lt_of_le hb' hbb
  have ha' : 0 < a' := lt_of_lt_of_le ha haa
  have q1 : 0 < a * rt * rt + b := by
    have : 0 ≤ a * rt * rt := by rw [mul_assoc]; exact mul_nonneg ha.le hr
    linarith
  have q2 : 0 < a' * rt * rt + b' := by
    have : 0 ≤ a' * rt * rt := by rw [mul_assoc]; exact mul_nonneg ha'.le hr
    linarith
  rw [div_le_div_iff₀ q2 q1]
  have h1 : b' * a ≤ b * a' := mul_le_mul hbb haa ha.le hb.le
  have h2 := mul_le_mul_of_nonneg_right h1 hr
  nlinarith [h2]

theorem pass_range {rt txe a b : K} (ha : 0 < a) (hb : 0 < b) (ht : 0 ≤ txe) :
    0 ≤ b / (a * rt * rt + b) * txe ∧ b / (a * rt * rt + b) * txe ≤ txe ∧ a * rt * rt + b ≠ 0 := by
  have q0 : 0 ≤ a * rt * rt := by rw [mul_assoc]; exact mul_nonneg ha.le (mul_self_nonneg rt)
  have q1 : 0 < a * rt * rt + b := by linarith
  refine ⟨mul_nonneg (div_nonneg hb.le q1.le) ht, ?_, q1.ne'⟩
  have := mul_le_mul_of_nonneg_right ((div_le_one q1).mpr (show b ≤ a * rt * rt + b by linarith)) ht
  linarith

section Stops

variable {fl fh : K → K} {ldpl ldph : K → Res K} {rt txe tol lo hi : K}

theorem loop_up (ht : 0 ≤ txe)
    (hl : ∀ x, 0 ≤ x → x ≤ txe → ldpl x = .ok (fl x) ∧ 0 < fl x ∧ fl x ≤ hi)
    (hh : ∀ x, 0 ≤ x → x ≤ txe → ldph x = .ok (fh x) ∧ 0 < fh x)
    (ml : ∀ x y, 0 ≤ x → x ≤ y → y ≤ txe → fl x ≤ fl y) (mh : ∀ x y, 0 ≤ x → x ≤ y → y ≤ txe → fh x ≤ fh y) :
    ∀ (fuel : Nat) (e : K), 0 ≤ e → e ≤ txe → fh (txe - e) / (fl e * rt * rt + fh (txe - e)) * txe ≤ txe - e →
      hi - fl e < tol * fuel → ∃ u, shareLoop ldpl ldph rt txe tol fuel (fl e) (fh (txe - e)) = .ok u := by
  intro fuel
  induction fuel with
  | zero =>
      intro e e0 e1 _ hf
      have := (hl e e0 e1).2.2
      simp at hf
      linarith
  | succ fuel ih =>
      intro e e0 e1 hup hf
      obtain ⟨r0, r1, rne⟩ := pass_range (rt := rt) (hl e e0 e1).2.1 (hh (txe - e) (by linarith) (by linarith)).2 ht
      rw [shareLoop, if_neg rne]
      simp only []
      generalize hg : fh (txe - e) / (fl e * rt * rt + fh (txe - e)) * txe = eh at *
      rw [(hl (txe - eh) (by linarith) (by linarith)).1, (hh eh r0 r1).1]
      simp only []
      by_cases hs : tol < |fl (txe - eh) - fl e|
      · rw [if_pos hs]
        have m1 := ml e (txe - eh) e0 (by linarith) (by linarith)
        have m2 := mh eh (txe - e) r0 hup (by linarith)
        have e2 : txe - (txe - eh) = eh := by ring
        have := ih (txe - eh) (by linarith) (by linarith) (by
          rw [e2, ← hg]
          rw [hg]
          have := pass_mono (rt := rt) (hl e e0 e1).2.1 (hh eh r0 r1).2 m1 m2 ht
          rw [hg] at this
          exact this) (by
          rw [abs_of_nonneg (by linarith)] at hs
          push_cast at hf
          linarith)
        rw [e2] at this
        exact this
      · rw [if_neg hs]; exact ⟨_, rfl⟩

theorem loop_down (ht : 0 ≤ txe)
    (hl : ∀ x, 0 ≤ x → x ≤ txe → ldpl x = .ok (fl x) ∧ 0 < fl x ∧ lo ≤ fl x)
    (hh : ∀ x, 0 ≤ x → x ≤ txe → ldph x = .ok (fh x) ∧ 0 < fh x)
    (ml : ∀ x y, 0 ≤ x → x ≤ y → y ≤ txe → fl x ≤ fl y) (mh : ∀ x y, 0 ≤ x → x ≤ y → y ≤ txe → fh x ≤ fh y) :
    ∀ (fuel : Nat) (e : K), 0 ≤ e → e ≤ txe → txe - e ≤ fh (txe - e) / (fl e * rt * rt + fh (txe - e)) * txe →
      fl e - lo < tol * fuel → ∃ u, shareLoop ldpl ldph rt txe tol fuel (fl e) (fh (txe - e)) = .ok u := by
  intro fuel
  induction fuel with
  | zero =>
      intro e e0 e1 _ hf
      have := (hl e e0 e1).2.2
      simp at hf
      linarith
  | succ fuel ih =>
      intro e e0 e1 hdn hf
      obtain ⟨r0, r1, rne⟩ := pass_range (rt := rt) (hl e e0 e1).2.1 (hh (txe - e) (by linarith) (by linarith)).2 ht
      rw [shareLoop, if_neg rne]
      simp only []
      generalize hg : fh (txe - e) / (fl e * rt * rt + fh (txe - e)) * txe = eh at *
      rw [(hl (txe - eh) (by linarith) (by linarith)).1, (hh eh r0 r1).1]
      simp only []
      by_cases hs : tol < |fl (txe - eh) - fl e|
      · rw [if_pos hs]
        have m1 := ml (txe - eh) e (by linarith) (by linarith) e1
        have m2 := mh (txe - e) eh (by linarith) hdn r1
        have e2 : txe - (txe - eh) = eh := by ring
        have := ih (txe - eh) (by linarith) (by linarith) (by
          rw [e2]
          have := pass_mono (rt := rt) (hl (txe - eh) (by linarith) (by linarith)).2.1
            (hh (txe - e) (by linarith) (by linarith)).2 m1 m2 ht
          rw [hg] at this
          exact this) (by
          rw [abs_of_nonpos (by linarith)] at hs
          push_cast at hf
          linarith)
        rw [e2] at this
        exact this
      · rw [if_neg hs]; exact ⟨_, rfl⟩

/-- **C43**, partial: when both level density parameters are positive and do not fall with the energy between
0 and `txe`, the iteration ends, after fewer than `(hi - lo) / tol + 1` passes where `lo`, `hi` bound the
light parameter. What is missing is termination for every pair of tables, which is false
(`C43_not_terminating`). -/
theorem C43_terminates_partial (ht : 0 ≤ txe)
    (hl : ∀ x, 0 ≤ x → x ≤ txe → ldpl x = .ok (fl x) ∧ 0 < fl x ∧ lo ≤ fl x ∧ fl x ≤ hi)
    (hh : ∀ x, 0 ≤ x → x ≤ txe → ldph x = .ok (fh x) ∧ 0 < fh x)
    (ml : ∀ x y, 0 ≤ x → x ≤ y → y ≤ txe → fl x ≤ fl y) (mh : ∀ x y, 0 ≤ x → x ≤ y → y ≤ txe → fh x ≤ fh y)
    (fuel : Nat) (hf : hi - lo < tol * fuel) : ∃ u, shareRT ldpl ldph rt txe tol fuel = .ok u := by
  have e0 : 0 ≤ txe / 2 := by linarith
  have e1 : txe / 2 ≤ txe := by linarith
  have e2 : txe - txe / 2 = txe / 2 := by ring
  have b := hl (txe / 2) e0 e1
  unfold shareRT
  rw [b.1, (hh (txe / 2) e0 e1).1]
  simp only []
  rcases le_total (fh (txe / 2) / (fl (txe / 2) * rt * rt + fh (txe / 2)) * txe) (txe / 2) with h | h
  · have := loop_up (rt := rt) (tol := tol) ht (fun x a c => ⟨(hl x a c).1, (hl x a c).2.1, (hl x a c).2.2.2⟩) hh ml mh
      fuel (txe / 2) e0 e1 (by rw [e2]; exact h) (by linarith [b.2.2.1])
    rw [e2] at this
    exact this
  · have := loop_down (rt := rt) (tol := tol) ht (fun x a c => ⟨(hl x a c).1, (hl x a c).2.1, (hl x a c).2.2.1⟩) hh ml mh
      fuel (txe / 2) e0 e1 (by rw [e2]; exact h) (by linarith [b.2.2.2])
    rw [e2] at this
    exact this

end Stops

/-- The hypotheses with parameters that do vary with the energy. -/
example : ∃ u, shareRT pairLdp pairLdp (6 / 5) 8 (1 / 100) 201 = .ok u :=
  C43_terminates_partial (fl := fun e => 1 + e / 4) (fh := fun e => 1 + e / 4) (lo := 1) (hi := 3) (by norm_num)
    (fun x h0 h1 => ⟨rfl, by linarith, by linarith, by linarith⟩) (fun x h0 h1 => ⟨rfl, by linarith⟩)
    (fun x y _ h _ => by linarith) (fun x y _ h _ => by linarith) 201 (by norm_num)

/-- Energy grid and level density table of the negation; row 0 falls from 3 to 1 between 1 and 3/2. -/
def loopGrid : List ℚ := [0, 1, 3 / 2, 3]
def loopTab : List (List ℚ) := [[3, 3, 1, 1], [1, 1, 1, 1]]

/-- **C43**, negation: with the table above (positive parameters, energies inside the grid), temperature ratio
1, total energy 2 and the tolerance of the code, the iteration alternates between two splits and is not
finished after any number of passes. -/
theorem C43_not_terminating (fuel : Nat) :
    shareRT (lookup 5 loopGrid loopTab 0) (lookup 5 loopGrid loopTab 1) 1 2 (1 / 100) fuel = .more := by
  have l1 : lookup 5 loopGrid loopTab 0 1 = .ok 3 := by decide +kernel
  have l2 : lookup 5 loopGrid loopTab 0 (3 / 2) = .ok 1 := by decide +kernel
  have h1 : lookup 5 loopGrid loopTab 1 1 = .ok 1 := by decide +kernel
  have h2 : lookup 5 loopGrid loopTab 1 (1 / 2) = .ok 1 := by decide +kernel
  have key : ∀ fuel : Nat,
      shareLoop (lookup 5 loopGrid loopTab 0) (lookup 5 loopGrid loopTab 1) 1 2 (1 / 100) fuel 3 1 = .more ∧
      shareLoop (lookup 5 loopGrid loopTab 0) (lookup 5 loopGrid loopTab 1) 1 2 (1 / 100) fuel 1 1 = .more := by
    intro fuel
    induction fuel with
    | zero => exact ⟨rfl, rfl⟩
    | succ fuel ih =>
        constructor
        · rw [shareLoop, if_neg (by norm_num)]
          simp only []
          rw [show (2 : ℚ) - 1 / (3 * 1 * 1 + 1) * 2 = 3 / 2 by norm_num,
            show (1 : ℚ) / (3 * 1 * 1 + 1) * 2 = 1 / 2 by norm_num, l2, h2]
          simp only []
          rw [if_pos (by norm_num)]
          exact ih.2
        · rw [shareLoop, if_neg (by norm_num)]
          simp only []
          rw [show (2 : ℚ) - 1 / (1 * 1 * 1 + 1) * 2 = 1 by norm_num,
            show (1 : ℚ) / (1 * 1 * 1 + 1) * 2 = 1 by norm_num, l1, h1]
          simp only []
          rw [if_pos (by norm_num)]
          exact ih.1
  unfold shareRT
  rw [show (2 : ℚ) / 2 = 1 by norm_num, l1, h1]
  exact (key fuel).1

end CGMF.Props
