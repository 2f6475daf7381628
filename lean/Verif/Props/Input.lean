import Verif.Tactics
import Verif.Model.Input
import Verif.Spec.Reactions

/-!
# C01, C02, C05: input gate, compound nucleus, data path
-/

set_option linter.unusedSectionVars false
set_option linter.unusedSimpArgs false
set_option linter.unreachableTactic false

namespace CGMF.Props

open CGMF CGMF.Input CGMF.Spec

variable {K : Type _} [Field K] [LinearOrder K] [IsStrictOrderedRing K]

/-- **C01.**  Event construction passes input checking exactly for the documented reactions;
every other input in the range of `int` ends the process. -/
theorem C01_gate_exact (zaid : Int) (e : K) :
    checkInput zaid e = .ok () ↔ Supported zaid e := by
  unfold checkInput Supported allowedIsotopes spontaneousIsotopes inducedIsotopes intMin
  by_cases he : e = 0
  · subst he
    simp only [true_and, if_true, lt_irrefl, false_and, or_false, ne_eq, not_true_eq_false,
      and_false, if_false]
    by_cases hm : zaid = -2147483648
    · subst hm; simp
    · simp only [hm, if_false]
      rcases abs_cases zaid with ⟨h, _⟩ | ⟨h, _⟩ <;> rw [h] <;>
        simp only [List.mem_cons, List.not_mem_nil, or_false, not_or] <;>
        split_ifs <;> simp_all <;> omega
  · simp only [he, false_and, if_false, ne_eq, not_false_eq_true, and_true, false_or]
    simp only [List.mem_cons, List.not_mem_nil, or_false]
    constructor
    · intro h
      split_ifs at h with h1 h2 h3
      simp only [not_or, not_and, not_lt, not_le, gt_iff_lt] at h1 h2 h3
      have hz : 0 < zaid := by omega
      exact ⟨(h3 hz).2, (h3 hz).1, by omega⟩
    · rintro ⟨h0, h1, h2⟩
      have hz : 0 < zaid := by omega
      rw [if_neg (by push Not; omega), if_neg (by omega), if_neg (by
        push Not; intro _; exact ⟨h1, h0⟩)]

/-- Refused inputs end in a controlled exit, never in undefined behaviour, unless the id is
the smallest `int` and the energy is zero. -/
theorem C01_gate_refuses (zaid : Int) (e : K) (h : ¬ Supported zaid e)
    (hmin : zaid ≠ -2147483648 ∨ e ≠ 0) : checkInput zaid e = .exit := by
  have h' : checkInput zaid e ≠ .ok () := fun hh => h ((C01_gate_exact zaid e).1 hh)
  have h'' : checkInput zaid e ≠ .ub := by
    unfold checkInput intMin
    rw [if_neg (by tauto)]
    dsimp only
    split_ifs <;> simp
  cases hc : checkInput zaid e with
  | ok a => exact absurd hc h'
  | exit => rfl
  | ub => exact absurd hc h''

example : Supported (K := ℚ) 98252 0 := by
  left; simp [spontaneousIsotopes]
example : Supported (K := ℚ) 92235 (1/2) := by
  right; norm_num [inducedIsotopes]
example : ¬ Supported (K := ℚ) 92235 0 := by
  simp [Supported, spontaneousIsotopes]
example : ¬ Supported (K := ℚ) 92235 (41/2) := by
  norm_num [Supported, spontaneousIsotopes, inducedIsotopes]

/-- **C02.**  For a reaction accepted by the input gate and written with a positive id, the
second gate (the option table) accepts too, the fissioning nucleus is the target plus the
incident neutron (if any), and its excess mass and separation energy come from the same table.
The mass table must contain the nuclei involved. -/
theorem C02_compound_partial (masses : Int → K) (zaid : Int) (e : K)
    (hok : checkInput zaid e = .ok ()) (hpos : 0 < zaid)
    (hm : ∀ z, z = 1 ∨ (z = zaid ∨ z = zaid + 1) → masses z ≠ 0) :
    ∃ c, eventReaction masses zaid e = .ok c ∧
      c.zc = zaid / 1000 ∧
      c.ac = zaid % 1000 + (if e = 0 then 0 else 1) ∧
      c.zaidc = 1000 * c.zc + c.ac ∧
      c.asym = c.ac / 2 ∧
      c.massExcess = masses c.zaidc ∧
      c.sn = (if e = 0 then 0 else masses (c.zaidc - 1) + masses 1 - masses c.zaidc) ∧
      (c.opts.sf = true ↔ e = 0) ∧ (c.opts.anisotropy = true ↔ e ≠ 0) ∧
      3 ≤ c.opts.dZ ∧ c.opts.dZ ≤ 7 := by
  have hs := (C01_gate_exact zaid e).1 hok
  have h1000 : truncDiv1000 zaid = zaid / 1000 := Int.tdiv_eq_ediv_of_nonneg hpos.le
  have hm1 := hm 1 (Or.inl rfl)
  have hmz := hm zaid (Or.inr (Or.inl rfl))
  have hmz1 := hm (zaid + 1) (Or.inr (Or.inr rfl))
  unfold eventReaction fragmentsCtor
  rw [hok, h1000]
  simp only [Res.bind_ok]
  rcases hs with ⟨rfl, hz | hz⟩ | ⟨h0, h20, hz⟩
  · simp only [spontaneousIsotopes, List.mem_cons, List.not_mem_nil, or_false] at hz
    rcases hz with rfl | rfl | rfl | rfl | rfl | rfl <;>
      norm_num [getMassExcess, compoundSn, maxZaid, setOptions, hmz] <;> decide
  · simp only [spontaneousIsotopes, List.mem_cons, List.not_mem_nil, or_false] at hz
    omega
  · have he : e ≠ 0 := h0.ne'
    simp only [inducedIsotopes, List.mem_cons, List.not_mem_nil, or_false] at hz
    rcases hz with rfl | rfl | rfl | rfl | rfl | rfl | rfl <;>
      norm_num [getMassExcess, compoundSn, maxZaid, setOptions, hmz, hm1, he, h0] at hmz1 ⊢ <;>
      norm_num [hmz1] <;> first | (constructor <;> [decide; ring])

/-- C02, refutation of the unrestricted claim: a negative id is accepted by the input gate for
spontaneous fission, and the fragment generator then reads the mass table out of bounds. -/
theorem C02_negative_id_undefined (masses : Int → K) :
    ∃ zaid : Int, Supported zaid (0 : K) ∧ checkInput zaid (0 : K) = .ok () ∧
      eventReaction masses zaid (0 : K) = .ub := by
  have hs : Supported (-98252) (0 : K) := by left; simp [spontaneousIsotopes]
  refine ⟨-98252, hs, (C01_gate_exact _ _).2 hs, ?_⟩
  unfold eventReaction
  rw [(C01_gate_exact _ _).2 hs]
  simp [fragmentsCtor, truncDiv1000, compoundSn, getMassExcess]

example : eventReaction (K := ℚ) (fun _ => 1) 98252 0 =
    .ok ⟨98, 252, 98, 252, 98252, 126, 49, 1, 0, ⟨7, 7, false, false, true⟩⟩ := by
  decide +kernel

/-- **C05.**  Setting the data path: the resulting directory is non-empty, ends in a separator,
is the requested path (or the first existing default) with at most one separator appended, and
setting it to its own value leaves it unchanged. -/
theorem C05_datapath (isDir : List Char → Bool) (inst build path d : List Char)
    (h : setdatapath isDir inst build path = .ok d) :
    d.getLast? = some '/' ∧
    (∃ base, (base = path ∧ path ≠ [] ∨
              path = [] ∧ isDir inst = true ∧ base = inst ∨
              path = [] ∧ isDir inst = false ∧ isDir build = true ∧ base = build) ∧
        (d = base ∧ base.getLast? = some '/' ∨ d = base ++ ['/'] ∧ base.getLast? ≠ some '/')) ∧
    setdatapath isDir inst build d = .ok d := by
  have hself : ∀ x : List Char, x.getLast? = some '/' →
      setdatapath isDir inst build x = .ok x := by
    intro x hx
    have hne : x ≠ [] := by rintro rfl; simp at hx
    simp [setdatapath, choosePath, addSeparator, hne, hx]
  have key : ∀ base : List Char,
      addSeparator base = .ok d →
      d.getLast? = some '/' ∧
        (d = base ∧ base.getLast? = some '/' ∨ d = base ++ ['/'] ∧ base.getLast? ≠ some '/') := by
    intro base hb
    unfold addSeparator at hb
    cases hl : base.getLast? with
    | none => rw [hl] at hb; simp at hb
    | some c =>
      rw [hl] at hb
      by_cases hc : c = '/'
      · subst hc
        simp at hb; subst hb; exact ⟨hl, Or.inl ⟨rfl, rfl⟩⟩
      · simp [hc] at hb; subst hb
        refine ⟨by simp, Or.inr ⟨rfl, by simpa using hc⟩⟩
  unfold setdatapath choosePath at h
  by_cases hp : path = []
  · simp only [hp, if_true] at h
    by_cases hi : isDir inst = true
    · simp only [hi, if_true, Res.bind_ok] at h
      obtain ⟨h1, h2⟩ := key _ h
      exact ⟨h1, ⟨inst, Or.inr (Or.inl ⟨hp, hi, rfl⟩), h2⟩, hself d h1⟩
    · by_cases hb : isDir build = true
      · simp only [hi, hb, if_true, if_false, Res.bind_ok] at h
        obtain ⟨h1, h2⟩ := key _ h
        exact ⟨h1, ⟨build, Or.inr (Or.inr ⟨hp, by simpa using hi, hb, rfl⟩), h2⟩, hself d h1⟩
      · simp [hi, hb] at h
  · simp only [hp, if_false, Res.bind_ok] at h
    obtain ⟨h1, h2⟩ := key _ h
    exact ⟨h1, ⟨path, Or.inl ⟨rfl, hp⟩, h2⟩, hself d h1⟩

/-- C05, error branch: the process exits exactly when no path is given and no default exists;
otherwise a directory is set (compiled-in defaults being non-empty). -/
theorem C05_datapath_exit_iff (isDir : List Char → Bool) (inst build path : List Char)
    (hi : inst ≠ []) (hb : build ≠ []) :
    (setdatapath isDir inst build path = .exit ↔
      path = [] ∧ isDir inst = false ∧ isDir build = false) ∧
    setdatapath isDir inst build path ≠ .ub := by
  have key : ∀ base : List Char, base ≠ [] → ∃ d,
      addSeparator base = .ok d := by
    intro base hne
    unfold addSeparator
    rw [List.getLast?_eq_some_getLast hne]
    by_cases hc : base.getLast hne = '/' <;> simp [hc]
  unfold setdatapath choosePath
  by_cases hp : path = []
  · by_cases h1 : isDir inst = true
    · obtain ⟨d, hd⟩ := key inst hi
      simp only [hp, if_true, h1, Res.bind_ok, hd]; simp
    · by_cases h2 : isDir build = true
      · obtain ⟨d, hd⟩ := key build hb
        simp [hp, h1, h2, hd]
      · simp [hp, h1, h2]
  · obtain ⟨d, hd⟩ := key path hp
    simp only [hp, if_false, Res.bind_ok, hd]; simp

example : setdatapath (fun _ => false) ['i'] ['b'] ['/', 'd'] = .ok ['/', 'd', '/'] := by decide
example : setdatapath (fun p => p == ['b']) ['i'] ['b'] [] = .ok ['b', '/'] := by decide
example : setdatapath (fun _ => false) ['i'] ['b'] [] = .exit := by decide

/-- **C62.**  Yields mode (`cgmfYields`, CLI with a negative event count) skips the input gate:
there are reactions refused by the event gate, one by each of its rules, that the fragment
generator of yields mode accepts. -/
theorem C62_yields_mode_ungated (masses : Int → K) (hm : ∀ z, masses z ≠ 0) :
    (∀ (zaid : Int), zaid ∈ inducedIsotopes → zaid ≠ 92238 →
      checkInput zaid (0 : K) = .exit ∧ ∃ c, fragmentsCtor masses zaid (0 : K) = .ok c) ∧
    (∀ (zaid : Int) (e : K), zaid ∈ inducedIsotopes → 20 < e →
      checkInput zaid e = .exit ∧ ∃ c, fragmentsCtor masses zaid e = .ok c) := by
  constructor
  · intro zaid hz hne
    refine ⟨C01_gate_refuses _ _ ?_ ?_, ?_⟩
    · simp only [Supported, spontaneousIsotopes, inducedIsotopes, List.mem_cons,
        List.not_mem_nil, or_false, lt_irrefl, false_and, true_and] at hz ⊢
      omega
    · left
      simp only [inducedIsotopes, List.mem_cons, List.not_mem_nil, or_false] at hz
      omega
    · simp only [inducedIsotopes, List.mem_cons, List.not_mem_nil, or_false] at hz
      rcases hz with rfl | rfl | rfl | rfl | rfl | rfl | rfl <;>
        simp [fragmentsCtor, truncDiv1000, compoundSn, getMassExcess, maxZaid, setOptions, hm] at hne ⊢
  · intro zaid e hz he
    have h20 : (0 : K) < 20 := by norm_num
    have hpos : 0 < e := lt_trans h20 he
    refine ⟨C01_gate_refuses _ _ ?_ (Or.inr hpos.ne'), ?_⟩
    · rintro (⟨h, _⟩ | ⟨_, h, _⟩)
      · exact hpos.ne' h
      · exact absurd he (not_lt.2 h)
    · simp only [inducedIsotopes, List.mem_cons, List.not_mem_nil, or_false] at hz
      rcases hz with rfl | rfl | rfl | rfl | rfl | rfl | rfl <;>
        simp [fragmentsCtor, truncDiv1000, compoundSn, getMassExcess, maxZaid, setOptions, hm, hpos, hpos.ne']

/-- C62, what does hold: without a gate, yields mode never runs for an isotope outside the
table, and never induces fission in an isotope that is only tabulated for spontaneous fission. -/
theorem C62_yields_mode_partial (masses : Int → K) (zaid : Int) (e : K) (c : Compound K)
    (h : fragmentsCtor masses zaid e = .ok c) :
    (e = 0 ∧ zaid ∈ spontaneousIsotopes) ∨ zaid ∈ inducedIsotopes := by
  unfold fragmentsCtor at h
  simp only [Res.bind_eq_ok] at h
  obtain ⟨_, _, _, _, o, ho, _hc⟩ := h
  clear _hc
  by_contra hc
  simp only [spontaneousIsotopes, inducedIsotopes, List.mem_cons, List.not_mem_nil, or_false,
    not_or, not_and] at hc
  obtain ⟨h1, h2⟩ := hc
  by_cases he : e = 0
  · have h3 := h1 he
    simp [setOptions, h2, h3] at ho
  · simp [setOptions, h2, he] at ho

example : (92235 : Int) ∈ inducedIsotopes ∧ (92235 : Int) ≠ 92238 := by decide

end CGMF.Props
