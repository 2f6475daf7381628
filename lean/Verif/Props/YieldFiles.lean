import Mathlib.Topology.Order.OrderClosed
import Mathlib.Topology.Instances.Real.Lemmas
import Mathlib.Algebra.Order.Ring.Rat
import Verif.Proofs.YieldFiles

/-!
# C104, C105: yield parameters come from the nucleus's own row, and what they make of the kinetic energy
-/

namespace CGMF.Props

open CGMF.Data CGMF.YFile CGMF.Spec CGMF.Text

variable {K : Type} [Field K] [LinearOrder K]

theorem getD_getElem {α : Type} (l : List α) (d : α) {i : Nat} (h : i < l.length) : l.getD i d = l[i] := by
  simp [List.getD, h]

/-- **C104.** Induced fission, mass yields.  In a file of comments, blank lines and rows (lines shorter than 299
characters, each ended by a newline, no blank line before the first row), the reader finds for every chance `n < 4` the
last row of the nucleus that has lost `n` neutrons, and marks the chance unsupported when there is none; it exits
exactly when the compound nucleus itself has no row. -/
theorem C104_mass_partial (inum : List Char → Option Int) (num : List Char → Option K) (cn : Int) (ls : List (YLine K))
    (hg : ∀ l ∈ ls, l.Good inum num 299 14 fun _ => true) (ho : Opened (fun _ => true) ls) (fuel : Nat)
    (hf : ls.length < fuel) :
    ((∃ r ∈ yRows ls, r.1 = cn) → ∃ st, setYieldParameters inum num cn false fuel (some (yText ls)) = .ok st ∧
      ∀ n : Nat, n < 4 →
        (∀ v, lastRow (yRows ls) (cn - n) = some v → st.rows[n]? = some (v.map some) ∧ st.supp[n]? = some true) ∧
        (lastRow (yRows ls) (cn - n) = none → st.supp[n]? = some false)) ∧
    ((∀ r ∈ yRows ls, r.1 ≠ cn) → setYieldParameters inum num cn false fuel (some (yText ls)) = .exit) := by
  obtain ⟨st, h1, h2⟩ := loop_good (k := massKind) (by decide) (by decide) (inum := inum) (num := num) (cn := cn) ls []
    (start massKind) fuel (inv_start massKind cn) hg (fun h0 a t b hab => by simpa using ho h0 a t b hab) hf
  rw [List.nil_append] at h2
  have hread : readParams massKind inum num cn false fuel (some (yText ls)) = .ok st := h1
  unfold setYieldParameters
  rw [hread]
  constructor
  · intro hex
    have hfound : st.found = true := h2.found.2 ((lastRow_isSome _ _).2 hex)
    refine ⟨st, by simp [thenDo, hfound], fun n hn => ⟨fun v hv => ?_, fun hv => ?_⟩⟩
    · obtain ⟨h3, h4⟩ := h2.own n hn v hv
      have hl := h2.len
      have hs := h2.slen
      rw [List.getElem?_eq_getElem (by omega), List.getElem?_eq_getElem (by omega)]
      rw [getD_getElem _ _ (by omega)] at h3 h4
      rw [h3, h4]; exact ⟨rfl, rfl⟩
    · obtain ⟨h3, -⟩ := h2.none n hn hv
      have hs := h2.slen
      rw [List.getElem?_eq_getElem (by omega)]
      rw [getD_getElem _ _ (by omega)] at h3
      rw [h3]
  · intro hno
    have hfound : st.found = false := by
      rw [Bool.eq_false_iff]
      intro h
      obtain ⟨r, hr, hi⟩ := (lastRow_isSome _ _).1 (h2.found.1 h)
      exact hno r hr hi
    simp [thenDo, hfound]

/-- **C104.** Induced fission, kinetic energies: lines shorter than 399 characters; rows of exactly 27 words, other lines
ignored.  Nothing is reported when the compound nucleus has no row. -/
theorem C104_tke_partial (inum : List Char → Option Int) (num : List Char → Option K) (cn : Int) (ls : List (YLine K))
    (hg : ∀ l ∈ ls, l.Good inum num 399 26 fun n => n == 27) (fuel : Nat) (hf : ls.length < fuel) :
    ∃ st, setTKEParameters inum num cn false fuel (some (yText ls)) = .ok st ∧
      ∀ n : Nat, n < 4 →
        (∀ v, lastRow (yRows ls) (cn - n) = some v → st.rows[n]? = some (v.map some) ∧ st.supp[n]? = some true) ∧
        (lastRow (yRows ls) (cn - n) = none →
          st.rows[n]? = some (List.replicate 26 none) ∧ st.supp[n]? = some false) := by
  obtain ⟨st, h1, h2⟩ := loop_good (k := tkeKind) (by decide) (by decide) (inum := inum) (num := num) (cn := cn) ls []
    (start tkeKind) fuel (inv_start tkeKind cn) hg (fun h0 => by simp [tkeKind] at h0) hf
  rw [List.nil_append] at h2
  refine ⟨st, h1, fun n hn => ⟨fun v hv => ?_, fun hv => ?_⟩⟩
  · obtain ⟨h3, h4⟩ := h2.own n hn v hv
    have hl := h2.len
    have hs := h2.slen
    rw [List.getElem?_eq_getElem (by omega), List.getElem?_eq_getElem (by omega)]
    rw [getD_getElem _ _ (by omega)] at h3 h4
    rw [h3, h4]; exact ⟨rfl, rfl⟩
  · obtain ⟨h3, h4⟩ := h2.none n hn hv
    have hl := h2.len
    have hs := h2.slen
    rw [List.getElem?_eq_getElem (by omega), List.getElem?_eq_getElem (by omega)]
    rw [getD_getElem _ _ (by omega)] at h3 h4
    rw [h3, h4]; exact ⟨rfl, rfl⟩

/-- **C104.** Spontaneous fission: the first row under minus the nucleus, for the first chance only; mass yields exit
without such a row, kinetic energies stay unset. -/
theorem C104_spontaneous (inum : List Char → Option Int) (num : List Char → Option K) (cn : Int) (ls : List (YLine K))
    (fuel : Nat) (hf : ls.length < fuel) :
    ((∀ l ∈ ls, l.Good inum num 299 14 fun _ => true) → Opened (fun _ => true) ls →
      (∀ v, firstRow (yRows ls) (-cn) = some v → ∃ st, setYieldParameters inum num cn true fuel (some (yText ls)) = .ok st ∧
        st.rows[0]? = some (v.map some) ∧ st.supp = [true, false, false, false]) ∧
      (firstRow (yRows ls) (-cn) = none → setYieldParameters inum num cn true fuel (some (yText ls)) = .exit)) ∧
    ((∀ l ∈ ls, l.Good inum num 399 26 fun n => n == 27) →
      ∃ st, setTKEParameters inum num cn true fuel (some (yText ls)) = .ok st ∧
      (∀ v, firstRow (yRows ls) (-cn) = some v → st.rows[0]? = some (v.map some) ∧ st.supp = [true, false, false, false]) ∧
      (firstRow (yRows ls) (-cn) = none → st.rows[0]? = some (List.replicate 26 none) ∧
        st.supp = [false, false, false, false])) := by
  have hw : ∀ k : Kind, Waiting (K := K) k cn (!([] : List (Int × List K)).isEmpty) (start k) := fun k =>
    ⟨rfl, rfl, rfl, by simp [start], by simp⟩
  constructor
  · intro hg ho
    obtain ⟨st, h1, h2⟩ := loop_sf (k := massKind) (by decide) (inum := inum) (num := num) (cn := cn) ls ([] : List (Int × List K))
      (start massKind) fuel (hw _) hg (fun h0 a t b hab => by simpa using ho h0 a t b hab) hf
    have hread : readParams massKind inum num cn true fuel (some (yText ls)) = .ok st := h1
    unfold setYieldParameters
    rw [hread]
    constructor
    · intro v hv
      rw [hv] at h2
      obtain ⟨h3, h4, h5⟩ := h2
      exact ⟨st, by simp [thenDo, h5], by rw [h3]; rfl, h4⟩
    · intro hv
      rw [hv] at h2
      simp [thenDo, h2.2.2]
  · intro hg
    obtain ⟨st, h1, h2⟩ := loop_sf (k := tkeKind) (by decide) (inum := inum) (num := num) (cn := cn) ls ([] : List (Int × List K))
      (start tkeKind) fuel (hw _) hg (fun h0 => by simp [tkeKind] at h0) hf
    refine ⟨st, h1, fun v hv => ?_, fun hv => ?_⟩
    · rw [hv] at h2
      exact ⟨by rw [h2.1]; rfl, h2.2.1⟩
    · rw [hv] at h2
      exact ⟨by rw [h2.1]; rfl, by rw [h2.2.1]; rfl⟩

/-- **C104.** A missing file ends the process. -/
theorem C104_missing_file (inum : List Char → Option Int) (num : List Char → Option K) (cn : Int) (sf : Bool) (fuel : Nat) :
    setYieldParameters inum num cn sf fuel none = .exit ∧ setTKEParameters inum num cn sf fuel none = .exit :=
  ⟨rfl, rfl⟩

/-- **C104, refuted.** A last line that is not ended by a newline is ignored, whatever it holds: both readers do what
they do without it. -/
theorem C104_last_line (inum : List Char → Option Int) (num : List Char → Option K) (cn : Int) (sf : Bool) (fuel : Nat)
    (ls : List (YLine K)) (hls : ∀ l ∈ ls, '\n' ∉ l.text ∧ l.text.length < 299) (t : List Char) (ht : '\n' ∉ t)
    (htl : t.length < 299) :
    setYieldParameters inum num cn sf fuel (some (yText ls ++ t)) =
      setYieldParameters inum num cn sf fuel (some (yText ls)) ∧
    setTKEParameters inum num cn sf fuel (some (yText ls ++ t)) =
      setTKEParameters inum num cn sf fuel (some (yText ls)) := by
  constructor
  · unfold setYieldParameters readParams
    simp only
    rw [loop_unended (k := massKind) (by decide) ht htl ls _ fuel hls]
  · unfold setTKEParameters readParams
    simp only
    rw [loop_unended (k := tkeKind) (by decide) ht (by simp only [tkeKind]; omega) ls _ fuel
      (fun l hl => ⟨(hls l hl).1, by have := (hls l hl).2; simp only [tkeKind]; omega⟩)]

/-- **C104, refuted.** A comment too long for the buffer makes the readers loop for ever: no number of iterations is
enough. -/
theorem C104_long_line (inum : List Char → Option Int) (num : List Char → Option K) (cn : Int) (ls : List (YLine K))
    (l r : List Char) (hl : '\n' ∉ l) (hc : l.head? = some '#') (fuel : Nat) :
    ((∀ l ∈ ls, l.Good inum num 299 14 fun _ => true) → Opened (fun _ => true) ls → yRows ls ≠ [] → 299 ≤ l.length →
      setYieldParameters inum num cn false fuel (some (yText ls ++ (l ++ '\n' :: r))) = .more) ∧
    ((∀ l ∈ ls, l.Good inum num 399 26 fun n => n == 27) → 399 ≤ l.length →
      setTKEParameters inum num cn false fuel (some (yText ls ++ (l ++ '\n' :: r))) = .more) := by
  constructor
  · intro hg ho hne hlen
    obtain ⟨st, h1, h2⟩ := loop_prefix (k := massKind) (by decide) (inum := inum) (num := num) (cn := cn)
      (l ++ '\n' :: r) ls [] (start massKind) (inv_start massKind cn) hg
      (fun h0 a t b hab => by simpa using ho h0 a t b hab)
    rw [List.nil_append] at h1
    have hid : st.id ≠ none := by
      rw [h1.id]
      cases h : (yRows ls).getLast? with
      | none => exact absurd (List.getLast?_eq_none_iff.1 h) hne
      | some r => simp
    have hlong : readParams massKind inum num cn false fuel (some (yText ls ++ (l ++ '\n' :: r))) = .more := by
      refine loop_mono' fuel ls.length _ _ _ ?_
      rw [h2]
      exact loop_long (by decide) l r hl hlen hc fuel st (Or.inr ⟨rfl, hid⟩)
    unfold setYieldParameters
    rw [hlong]; rfl
  · intro hg hlen
    obtain ⟨st, h1, h2⟩ := loop_prefix (k := tkeKind) (by decide) (inum := inum) (num := num) (cn := cn)
      (l ++ '\n' :: r) ls [] (start tkeKind) (inv_start tkeKind cn) hg (fun h0 => by simp [tkeKind] at h0)
    refine loop_mono' fuel ls.length _ _ _ ?_
    rw [h2]
    exact loop_long (by decide) l r hl hlen hc fuel st (Or.inl rfl)

/-! ## C105: the average total kinetic energy -/

/-- What a row says about the average kinetic energy at the energy `e`: the first line up to the inflection point, then
the second slope from the value reached there. -/
def rowMean (a e0 b d e : K) : K := if e ≤ e0 then a + b * e else a + b * e0 + d * (e - e0)

/-- **C105.** With a row for the nucleus that has lost `n < 4` neutrons, mean and coefficients are those of that row. -/
theorem C105_own (st : St K) (viola e : K) (n : Nat) (hn : n < 4) (v : List K) (hv : v.length = 26)
    (hr : st.rows[n]? = some (v.map some)) (hs : st.supp[n]? = some true) :
    ∃ t, tkeSelect st viola n e = .ok t ∧ average t e = rowMean (v.getD 0 0) (v.getD 1 0) (v.getD 2 0) (v.getD 3 0) e ∧
      t.mean = (v.drop 4).take 11 ∧ t.width = (v.drop 15).take 11 := by
  have hs' : readAt st.supp (n : Int) = .ok true := by
    obtain ⟨h, h'⟩ := List.getElem?_eq_some_iff.1 hs
    unfold readAt
    rw [dif_pos ⟨by omega, by simpa using h⟩]
    simp [h']
  have hr' : readAt st.rows (n : Int) = .ok (v.map some) := by
    obtain ⟨h, h'⟩ := List.getElem?_eq_some_iff.1 hr
    unfold readAt
    rw [dif_pos ⟨by omega, by simpa using h⟩]
    simp [h']
  have h0 := known_map v 0 (by omega)
  have h1 := known_map v 1 (by omega)
  have h2 := known_map v 2 (by omega)
  have h3 := known_map v 3 (by omega)
  have h4 := knownFrom_map v 11 4 (by omega)
  have h5 := knownFrom_map v 11 15 (by omega)
  norm_num at h0 h1 h2 h3 h4 h5
  have hg : ∀ i (h : i < v.length), v.getD i 0 = v[i] := fun i h => getD_getElem _ _ h
  rw [hg 0 (by omega), hg 1 (by omega), hg 2 (by omega), hg 3 (by omega)]
  unfold tkeSelect
  have hn' : (n : Int) < 4 := by omega
  simp only [hn', if_true, hs', Res.bind, hr', h0, h1, h2, h3, h4, h5]
  refine ⟨_, rfl, ?_, rfl, rfl⟩
  unfold average rowMean
  by_cases he : e ≤ v[1]
  · simp only [he, if_true]
  · simp only [he, if_false]
    ring

/-- **C105.** Without one, the mean is the systematics with slope −1/4 and the coefficients are those of the compound
nucleus. -/
theorem C105_fallback_partial (st : St K) (viola e : K) (n : Nat) (v : List K) (hv : v.length = 26)
    (hr : st.rows[0]? = some (v.map some)) (hs : n < 4 → st.supp[n]? = some false) :
    ∃ t, tkeSelect st viola n e = .ok t ∧ average t e = viola - e / 4 ∧
      t.mean = (v.drop 4).take 11 ∧ t.width = (v.drop 15).take 11 := by
  have hs' : (if (n : Int) < 4 then readAt st.supp (n : Int) else .ok false) = .ok false := by
    by_cases hn : (n : Int) < 4
    · obtain ⟨h, h'⟩ := List.getElem?_eq_some_iff.1 (hs (by omega))
      rw [if_pos hn]
      unfold readAt
      rw [dif_pos ⟨by omega, by simpa using h⟩]
      simp [h']
    · rw [if_neg hn]
  have hr' : readAt st.rows 0 = .ok (v.map some) := by
    obtain ⟨h, h'⟩ := List.getElem?_eq_some_iff.1 hr
    unfold readAt
    rw [dif_pos ⟨by omega, by simpa using h⟩]
    simp [h']
  have h4 := knownFrom_map v 11 4 (by omega)
  have h5 := knownFrom_map v 11 15 (by omega)
  norm_num at h4 h5
  unfold tkeSelect
  simp only [hs', Res.bind, Bool.false_eq_true, if_false, hr', h4, h5]
  refine ⟨_, rfl, ?_, rfl, rfl⟩
  unfold average
  ring

/-- **C105, refuted.** When the file has no row for the compound nucleus, fission without a row of its own reads
coefficients that nothing has set. -/
theorem C105_unset (st : St K) (viola e : K) (n : Nat) (hr : st.rows[0]? = some (List.replicate 26 none))
    (hs : n < 4 → st.supp[n]? = some false) : tkeSelect st viola n e = .ub := by
  have hs' : (if (n : Int) < 4 then readAt st.supp (n : Int) else .ok false) = .ok false := by
    by_cases hn : (n : Int) < 4
    · obtain ⟨h, h'⟩ := List.getElem?_eq_some_iff.1 (hs (by omega))
      rw [if_pos hn]
      unfold readAt
      rw [dif_pos ⟨by omega, by simpa using h⟩]
      simp [h']
    · rw [if_neg hn]
  have hr' : readAt st.rows 0 = .ok (List.replicate 26 (none : Option K)) := by
    obtain ⟨h, h'⟩ := List.getElem?_eq_some_iff.1 hr
    unfold readAt
    rw [dif_pos ⟨by omega, by simpa using h⟩]
    simp [h']
  have h4 : knownFrom (List.replicate 26 (none : Option K)) 11 4 = .ub := by
    rw [knownFrom]
    have : known (List.replicate 26 (none : Option K)) 4 = .ub := by
      unfold known readAt
      rw [dif_pos ⟨by omega, by simp⟩]
      simp [Res.bind]
    rw [this]; rfl
  unfold tkeSelect
  simp only [hs', Res.bind, Bool.false_eq_true, if_false, hr', h4]

/-- **C104/C105.** From the file to the event: for every well-formed file, the first fission chance of a nucleus
uses the row of the nucleus, and is undefined when there is none, though the constructor reported nothing. -/
theorem C105_first_chance (inum : List Char → Option Int) (num : List Char → Option K) (cn : Int) (ls : List (YLine K))
    (hg : ∀ l ∈ ls, l.Good inum num 399 26 fun n => n == 27) (fuel : Nat) (hf : ls.length < fuel) (viola e : K) :
    ∃ st, setTKEParameters inum num cn false fuel (some (yText ls)) = .ok st ∧
      (∀ v, lastRow (yRows ls) cn = some v → ∃ t, tkeSelect st viola 0 e = .ok t ∧
        average t e = rowMean (v.getD 0 0) (v.getD 1 0) (v.getD 2 0) (v.getD 3 0) e) ∧
      (lastRow (yRows ls) cn = none → tkeSelect st viola 0 e = .ub) := by
  obtain ⟨st, h1, h2⟩ := C104_tke_partial inum num cn ls hg fuel hf
  obtain ⟨h3, h4⟩ := h2 0 (by omega)
  simp only [Nat.cast_zero, sub_zero] at h3 h4
  refine ⟨st, h1, fun v hv => ?_, fun hv => ?_⟩
  · have hlen : v.length = 26 := by
      unfold lastRow at hv
      rw [Option.map_eq_some_iff] at hv
      obtain ⟨r, hr, rfl⟩ := hv
      have hm := (List.mem_filter.1 (List.mem_of_getLast? hr)).1
      unfold yRows at hm
      rw [List.mem_flatMap] at hm
      obtain ⟨l, hl, hm⟩ := hm
      have hgl := hg l hl
      cases l with
      | comment t => simp [YLine.data] at hm
      | other t => simp [YLine.data] at hm
      | row t id vals =>
        simp only [YLine.data, List.mem_singleton] at hm
        subst hm
        obtain ⟨-, -, -, w, ws, -, -, -, h, -⟩ := hgl
        exact h
    obtain ⟨t, ht1, ht2, -⟩ := C105_own st viola e 0 (by omega) v hlen (h3 v hv).1 (h3 v hv).2
    exact ⟨t, ht1, ht2⟩
  · exact C105_unset st viola e 0 (h4 hv).1 (fun _ => (h4 hv).2)

/-- **C105.** The mean of a row is a continuous function of the energy. -/
theorem C105_continuous (a e0 b d : ℝ) : Continuous (rowMean a e0 b d) := by
  unfold rowMean
  refine Continuous.if_le (by fun_prop) (by fun_prop) continuous_id continuous_const ?_
  rintro x rfl
  ring

section order
variable [IsStrictOrderedRing K]

/-- **C105.** With a first slope that is not negative and a second one that is not positive, it rises to the inflection
point, falls after it, and is largest there. -/
theorem C105_peak (a e0 b d : K) (hb : 0 ≤ b) (hd : d ≤ 0) :
    (∀ x y, x ≤ y → y ≤ e0 → rowMean a e0 b d x ≤ rowMean a e0 b d y) ∧
    (∀ x y, e0 ≤ x → x ≤ y → rowMean a e0 b d y ≤ rowMean a e0 b d x) ∧
    ∀ x, rowMean a e0 b d x ≤ rowMean a e0 b d e0 := by
  have h1 : ∀ x y, x ≤ y → y ≤ e0 → rowMean a e0 b d x ≤ rowMean a e0 b d y := by
    intro x y hxy hy
    unfold rowMean
    rw [if_pos (hxy.trans hy), if_pos hy]
    have := mul_le_mul_of_nonneg_left hxy hb
    linarith
  have hform : ∀ x, e0 ≤ x → rowMean a e0 b d x = a + b * e0 + d * (x - e0) := by
    intro x hx
    unfold rowMean
    by_cases h : x ≤ e0
    · have : x = e0 := le_antisymm h hx
      subst this; simp
    · rw [if_neg h]
  have h2 : ∀ x y, e0 ≤ x → x ≤ y → rowMean a e0 b d y ≤ rowMean a e0 b d x := by
    intro x y hx hxy
    rw [hform x hx, hform y (hx.trans hxy)]
    nlinarith [mul_nonneg (neg_nonneg.2 hd) (sub_nonneg.2 hxy)]
  refine ⟨h1, h2, fun x => ?_⟩
  rcases le_total x e0 with h | h
  · exact h1 x e0 h le_rfl
  · exact h2 e0 x le_rfl h

/-- **C105.** The systematics give a positive energy as long as `x = Z²/A^(1/3)` stays below 1750 (uranium 238 has 1366,
californium 252 has 1521). -/
theorem C105_viola (z : Int) (x : K) (h0 : 0 ≤ x) (hx : x ≤ 1750) : 0 < viola z x := by
  have h1 : (0 : K) < 1189 / 10000 * x + 73 / 10 := by positivity
  unfold viola
  apply mul_pos h1
  split_ifs
  · simp only; norm_num; nlinarith
  · simp only; norm_num; nlinarith
  · simp only; norm_num; nlinarith
  · simp only; norm_num; nlinarith
  · simp

end order

/-! ## Examples -/

namespace YieldDemo

/-- A reading of short whole numbers. -/
def int (w : List Char) : Option Int :=
  match w with
  | '-' :: ds => if ds.all Char.isDigit then some (-(ds.foldl (fun n c => 10 * n + (c.toNat - 48)) 0 : Nat)) else none
  | ds => if ds.all Char.isDigit then some (ds.foldl (fun n c => 10 * n + (c.toNat - 48)) 0 : Nat) else none

/-- The same, as rational numbers. -/
def rat (w : List Char) : Option ℚ := (int w).map fun n => (n : ℚ)

/-- Uranium 236 and 235, as in the shipped file, with whole numbers and a remark at the end. -/
def lines : List (YLine ℚ) :=
  [.comment "# mass yields".toList,
   .row "92235 1 2 3 4 5 6 7 8 9 10 11 12 13 14".toList 92235 [1, 2, 3, 4, 5, 6, 7, 8, 9, 10, 11, 12, 13, 14],
   .other " ".toList,
   .row "92236 2 2 3 4 5 6 7 8 9 10 11 12 13 15 [1]".toList 92236 [2, 2, 3, 4, 5, 6, 7, 8, 9, 10, 11, 12, 13, 15],
   .row "-94240 3 2 3 4 5 6 7 8 9 10 11 12 13 15".toList (-94240) [3, 2, 3, 4, 5, 6, 7, 8, 9, 10, 11, 12, 13, 15]]

theorem good : ∀ l ∈ lines, l.Good int rat 299 14 fun _ => true := by
  intro l hl
  simp only [lines, List.mem_cons, List.not_mem_nil, or_false] at hl
  rcases hl with rfl | rfl | rfl | rfl | rfl
  · exact ⟨by decide +kernel, by decide +kernel, by decide +kernel⟩
  · refine ⟨by decide +kernel, by decide +kernel, by decide +kernel, _, _, rfl, by decide +kernel, by decide +kernel,
      rfl, rfl⟩
  · exact ⟨by decide +kernel, by decide +kernel, by decide +kernel, Or.inl (by decide +kernel)⟩
  · refine ⟨by decide +kernel, by decide +kernel, by decide +kernel, _, _, rfl, by decide +kernel, by decide +kernel,
      rfl, rfl⟩
  · refine ⟨by decide +kernel, by decide +kernel, by decide +kernel, _, _, rfl, by decide +kernel, by decide +kernel,
      rfl, rfl⟩

theorem opened : Opened (fun _ => true) lines := by
  intro _ a t b h
  rcases a with _ | ⟨x, a⟩
  · simp [lines] at h
  · rcases a with _ | ⟨y, a⟩
    · simp [lines] at h
    · simp only [lines, List.cons_append, List.cons.injEq] at h
      obtain ⟨rfl, rfl, -⟩ := h
      simp [yRows, YLine.data]

/-- The file is read for both chances of uranium 236, and for the spontaneous fission of plutonium 240. -/
example : (∃ st, setYieldParameters int rat 92236 false 6 (some (yText lines)) = .ok st ∧
      st.supp[1]? = some true ∧ st.supp[2]? = some false) ∧
    (∃ st, setYieldParameters int rat 94240 true 6 (some (yText lines)) = .ok st ∧
      st.supp = [true, false, false, false]) ∧
    setYieldParameters int rat 94240 false 6 (some (yText lines)) = .exit := by
  refine ⟨?_, ?_, ?_⟩
  · obtain ⟨st, h1, h2⟩ := (C104_mass_partial int rat 92236 lines good opened 6 (by decide)).1 ⟨(92236, _), by
      simp only [lines, yRows, List.flatMap_cons, YLine.data, List.nil_append, List.singleton_append, List.mem_cons]
      exact Or.inr (Or.inl rfl), rfl⟩
    exact ⟨st, h1, ((h2 1 (by omega)).1 [1, 2, 3, 4, 5, 6, 7, 8, 9, 10, 11, 12, 13, 14] (by decide +kernel)).2,
      (h2 2 (by omega)).2 (by decide +kernel)⟩
  · obtain ⟨st, h1, h2, h3⟩ := ((C104_spontaneous int rat 94240 lines 6 (by decide)).1 good opened).1
      [3, 2, 3, 4, 5, 6, 7, 8, 9, 10, 11, 12, 13, 15] (by decide +kernel)
    exact ⟨st, h1, h3⟩
  · refine (C104_mass_partial int rat 94240 lines good opened 6 (by decide)).2 ?_
    decide +kernel

/-- A row that is the last line without newline is lost. -/
example : setYieldParameters int rat 92239 false 9 (some (yText lines ++ "92239 1 2 3 4 5 6 7 8 9 10 11 12 13 14".toList)) =
    .exit := by
  rw [(C104_last_line int rat 92239 false 9 lines (fun l hl => ⟨(good l hl).1, (good l hl).2.1⟩) _ (by decide +kernel)
    (by decide +kernel)).1]
  exact (C104_mass_partial int rat 92239 lines good opened 9 (by decide)).2 (by decide +kernel)

/-- A long comment after the rows. -/
example (fuel : Nat) : setYieldParameters int rat 92236 false fuel
    (some (yText lines ++ (('#' :: List.replicate 300 '-') ++ '\n' :: []))) = .more :=
  (C104_long_line int rat 92236 lines _ [] (by decide +kernel) rfl fuel).1 good opened (by decide +kernel) (by decide +kernel)

/-- The kinetic energy of uranium 236: a rise up to 1 MeV, then a fall. -/
example : rowMean (170 : ℚ) 1 (1 / 2) (-(1 / 4)) 0 = 170 ∧ rowMean (170 : ℚ) 1 (1 / 2) (-(1 / 4)) 1 = 341 / 2 ∧
    rowMean (170 : ℚ) 1 (1 / 2) (-(1 / 4)) 5 = 339 / 2 := by
  unfold rowMean; norm_num

/-- A row of kinetic energies. -/
def tkeLine : YLine ℚ :=
  .row "92236 170 1 2 -3 126 160 1 2 3 4 5 6 7 8 9 126 160 1 2 3 4 5 6 7 8 9".toList 92236
    [170, 1, 2, -3, 126, 160, 1, 2, 3, 4, 5, 6, 7, 8, 9, 126, 160, 1, 2, 3, 4, 5, 6, 7, 8, 9]

theorem tkeGood : ∀ l ∈ [tkeLine], l.Good int rat 399 26 fun n => n == 27 := by
  intro l hl
  simp only [List.mem_cons, List.not_mem_nil, or_false] at hl
  subst hl
  exact ⟨by decide +kernel, by decide +kernel, by decide +kernel, _, _, rfl, by decide +kernel, by decide +kernel, rfl, rfl⟩

/-- With that file, uranium 236 has the mean of its row, and uranium 238 has nothing. -/
example (v : ℚ) : (∃ st t, setTKEParameters int rat 92236 false 9 (some (yText [tkeLine])) = .ok st ∧
      tkeSelect st v 0 2 = .ok t ∧ average t 2 = 169) ∧
    (∃ st, setTKEParameters int rat 92238 false 9 (some (yText [tkeLine])) = .ok st ∧ tkeSelect st v 0 2 = .ub) := by
  constructor
  · obtain ⟨st, h1, h2, -⟩ := C105_first_chance int rat 92236 [tkeLine] tkeGood 9 (by decide) v 2
    obtain ⟨t, h3, h4⟩ := h2 _ (by rfl)
    refine ⟨st, t, h1, h3, ?_⟩
    rw [h4]
    norm_num [rowMean]
  · obtain ⟨st, h1, -, h2⟩ := C105_first_chance int rat 92238 [tkeLine] tkeGood 9 (by decide) v 2
    exact ⟨st, h1, h2 (by decide +kernel)⟩

/-- The same row, for the compound nucleus after one neutron without a row of its own. -/
example (viola : ℚ) : ∃ t, tkeSelect ⟨[(List.replicate 26 (7 : ℚ)).map some], [true, false, false, false], true, none⟩ viola 1 2 = .ok t ∧
    average t 2 = viola - 1 / 2 := by
  obtain ⟨t, h1, h2, _⟩ := C105_fallback_partial (K := ℚ) ⟨[(List.replicate 26 (7 : ℚ)).map some], [true, false, false, false], true, none⟩ viola 2 1
    (List.replicate 26 7) (by simp) rfl (fun _ => rfl)
  exact ⟨t, h1, by rw [h2]; norm_num⟩

end YieldDemo

end CGMF.Props
