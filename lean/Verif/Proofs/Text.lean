import Verif.Tactics
import Verif.Model.Text

/-!
# Lemmas about the text primitives
-/

set_option linter.unusedSimpArgs false

namespace CGMF.Text

theorem digitChar_toNat {k : Nat} (h : k < 10) : (digitChar k).toNat = 48 + k := by
  revert k; decide

theorem isDigit_digitChar {k : Nat} (h : k < 10) : isDigit (digitChar k) = true := by
  simp [isDigit, digitChar_toNat h]; omega

theorem decVal_append (a b : List Char) : decVal (a ++ b) = decVal a * 10 ^ b.length + decVal b := by
  induction b using List.reverseRecOn with
  | nil => simp [decVal]
  | append_singleton b c ih =>
    rw [← List.append_assoc]
    have h1 : ∀ (l : List Char) (c : Char), decVal (l ++ [c]) = 10 * decVal l + (c.toNat - 48) := by
      intro l c; simp [decVal]
    rw [h1, h1, ih, List.length_append, pow_add]; simp; ring

theorem decVal_single (c : Char) : decVal [c] = c.toNat - 48 := by simp [decVal]

theorem decVal_digits (l : List Nat) (h : ∀ d ∈ l, d < 10) :
    decVal (l.reverse.map digitChar) = Nat.ofDigits 10 l := by
  induction l with
  | nil => simp [decVal]
  | cons d l ih =>
    have hd := h d (by simp)
    rw [List.reverse_cons, List.map_append, decVal_append, ih (fun x hx => h x (by simp [hx]))]
    simp [decVal_single, digitChar_toNat hd, Nat.ofDigits_cons]
    ring

theorem decVal_natDec (n : Nat) : decVal (natDec n) = n := by
  unfold natDec
  split_ifs with h
  · subst h; decide
  · rw [decVal_digits _ (fun d hd => Nat.digits_lt_base (by norm_num) hd), Nat.ofDigits_digits]

theorem natDec_ne_nil (n : Nat) : natDec n ≠ [] := by
  unfold natDec
  split_ifs with h
  · simp
  · simp [Nat.digits_ne_nil_iff_ne_zero.mpr h, h]

theorem natDec_digits (n : Nat) : ∀ c ∈ natDec n, isDigit c = true := by
  unfold natDec
  split_ifs with h
  · decide
  · intro c hc
    simp only [List.mem_map, List.mem_reverse] at hc
    obtain ⟨d, hd, rfl⟩ := hc
    exact isDigit_digitChar (Nat.digits_lt_base (by norm_num) hd)

theorem fracDec_length (d m : Nat) : (fracDec d m).length = d := by
  induction d generalizing m with
  | zero => rfl
  | succ d ih => simp [fracDec, ih]

theorem fracDec_digits (d m : Nat) : ∀ c ∈ fracDec d m, isDigit c = true := by
  induction d generalizing m with
  | zero => simp [fracDec]
  | succ d ih =>
    intro c hc
    simp only [fracDec, List.mem_append, List.mem_singleton] at hc
    rcases hc with hc | rfl
    · exact ih _ _ hc
    · exact isDigit_digitChar (Nat.mod_lt _ (by norm_num))

theorem decVal_fracDec (d m : Nat) (h : m < 10 ^ d) : decVal (fracDec d m) = m := by
  induction d generalizing m with
  | zero => simp at h; subst h; rfl
  | succ d ih =>
    have h1 : m / 10 < 10 ^ d := by
      rw [Nat.div_lt_iff_lt_mul (by norm_num)]; rw [pow_succ] at h; exact h
    rw [fracDec, decVal_append, ih _ h1, decVal_single,
      digitChar_toNat (Nat.mod_lt _ (by norm_num))]
    simp; omega

/-! ## Integers -/

theorem pyNat_digits {cs : List Char} (hne : cs ≠ []) (h : ∀ c ∈ cs, isDigit c = true) :
    pyNat cs = .ok (decVal cs) := by
  have : cs.all isDigit = true := by simpa [List.all_eq_true] using h
  simp [pyNat, hne, this]

theorem isDigit_ne {c : Char} (h : isDigit c = true) :
    c ≠ '-' ∧ c ≠ '+' ∧ c ≠ '.' ∧ c ≠ 'e' ∧ c ≠ ' ' ∧ c ≠ '\n' ∧ c ≠ '#' := by
  refine ⟨?_, ?_, ?_, ?_, ?_, ?_, ?_⟩ <;> (rintro rfl; revert h; decide)

/-- `pyInt` on an unsigned digit string. -/
theorem pyInt_digits {cs : List Char} (hne : cs ≠ []) (h : ∀ c ∈ cs, isDigit c = true) :
    pyInt cs = .ok (decVal cs : Int) := by
  obtain ⟨c, l, rfl⟩ := List.exists_cons_of_ne_nil hne
  have hc := isDigit_ne (h c (by simp))
  unfold pyInt
  split
  · rename_i heq; simp only [List.cons.injEq] at heq; exact absurd heq.1 hc.1
  · rename_i heq; simp only [List.cons.injEq] at heq; exact absurd heq.1 hc.2.1
  · rw [pyNat_digits (by simp) h]; rfl

theorem pyInt_fmtInt (i : Int) : pyInt (fmtInt i) = .ok i := by
  unfold fmtInt
  split_ifs with h
  · simp only [pyInt]
    rw [pyNat_digits (natDec_ne_nil _) (natDec_digits _), decVal_natDec]
    simp only [Res.bind_ok, Res.pure_eq]
    congr 1; omega
  · rw [pyInt_digits (natDec_ne_nil _) (natDec_digits _), decVal_natDec]
    congr 1; omega

/-! ## Floats -/

theorem takeWhile_digits {a b : List Char} (ha : ∀ c ∈ a, isDigit c = true)
    (hb : ∀ c ∈ b.head?, isDigit c = false) : (a ++ b).takeWhile isDigit = a := by
  induction a with
  | nil =>
    cases b with
    | nil => rfl
    | cons c b => simp [List.takeWhile_cons, hb c (by simp)]
  | cons c a ih =>
    simp only [List.cons_append, List.takeWhile_cons, ha c (by simp), if_true]
    rw [ih (fun x hx => ha x (by simp [hx]))]

theorem dropWhile_digits {a b : List Char} (ha : ∀ c ∈ a, isDigit c = true)
    (hb : ∀ c ∈ b.head?, isDigit c = false) : (a ++ b).dropWhile isDigit = b := by
  induction a with
  | nil =>
    cases b with
    | nil => rfl
    | cons c b => simp [List.dropWhile_cons, hb c (by simp)]
  | cons c a ih =>
    simp only [List.cons_append, List.dropWhile_cons, ha c (by simp), if_true]
    rw [ih (fun x hx => ha x (by simp [hx]))]

/-- Optional fraction. -/
def dotted (fp : List Char) : List Char := if fp = [] then [] else '.' :: fp

theorem pyUFloat_parts {ip fp ex : List Char} {e : Int} (hip : ip ≠ [])
    (h1 : ∀ c ∈ ip, isDigit c = true) (h2 : ∀ c ∈ fp, isDigit c = true)
    (hex : ∀ c ∈ ex.head?, c = 'e') (he : pyExp ex = .ok e) :
    pyUFloat (ip ++ (dotted fp ++ ex)) = .ok ((decVal (ip ++ fp) : ℚ) * (10 : ℚ) ^ (e - fp.length)) := by
  have hexd : ∀ c ∈ ex.head?, isDigit c = false := by
    intro c hc; rw [hex c hc]; decide
  unfold dotted
  split_ifs with hf
  · subst hf
    simp only [pyUFloat, List.nil_append]
    rw [takeWhile_digits h1 hexd, dropWhile_digits h1 hexd]
    have : fracSplit ex = (([] : List Char), ex) := by
      unfold fracSplit
      split
      · have := hex '.' (by simp)
        exact absurd this (by decide)
      · rfl
    rw [this]
    simp [hip, he]
  · simp only [pyUFloat, List.cons_append]
    have hd : ∀ c ∈ ('.' :: (fp ++ ex)).head?, isDigit c = false := by
      intro c hc; simp at hc; subst hc; decide
    rw [takeWhile_digits h1 hd, dropWhile_digits h1 hd]
    simp only [fracSplit]
    rw [takeWhile_digits h2 hexd, dropWhile_digits h2 hexd]
    simp [hip, he]

theorem pyFloat_unsigned {ip r : List Char} (hip : ip ≠ []) (h1 : ∀ c ∈ ip, isDigit c = true) :
    pyFloat (ip ++ r) = pyUFloat (ip ++ r) := by
  obtain ⟨c, l, rfl⟩ := List.exists_cons_of_ne_nil hip
  have hc := isDigit_ne (h1 c (by simp))
  rw [List.cons_append]
  unfold pyFloat
  split
  · rename_i heq; simp only [List.cons.injEq] at heq; exact absurd heq.1 hc.1
  · rename_i heq; simp only [List.cons.injEq] at heq; exact absurd heq.1 hc.2.1
  · rfl

/-- Signed version. -/
theorem pyFloat_parts {ip fp ex : List Char} {e : Int} (neg : Prop) [Decidable neg] (hip : ip ≠ [])
    (h1 : ∀ c ∈ ip, isDigit c = true) (h2 : ∀ c ∈ fp, isDigit c = true)
    (hex : ∀ c ∈ ex.head?, c = 'e') (he : pyExp ex = .ok e) :
    pyFloat ((if neg then ['-'] else []) ++ (ip ++ (dotted fp ++ ex)))
      = .ok ((if neg then -1 else 1) * ((decVal (ip ++ fp) : ℚ) * (10 : ℚ) ^ (e - fp.length))) := by
  split_ifs with hn
  · simp only [List.cons_append, List.nil_append, pyFloat]
    rw [pyUFloat_parts hip h1 h2 hex he]; simp
  · rw [List.nil_append, pyFloat_unsigned hip h1, pyUFloat_parts hip h1 h2 hex he]; simp

theorem roundHE_err (x : ℚ) : |(roundHE x : ℚ) - x| ≤ 1 / 2 := by
  have h1 := Int.floor_le x
  have h2 := Int.lt_floor_add_one x
  unfold roundHE
  simp only
  split_ifs <;> push_cast <;> rw [abs_le] <;> constructor <;> linarith

theorem roundHE_nonneg {x : ℚ} (h : 0 ≤ x) : 0 ≤ roundHE x := by
  have : 0 ≤ ⌊x⌋ := Int.floor_nonneg.mpr h
  unfold roundHE
  simp only
  split_ifs <;> omega

theorem toNat_roundHE_err {x : ℚ} (h : 0 ≤ x) : |(((roundHE x).toNat : Nat) : ℚ) - x| ≤ 1 / 2 := by
  have h0 := roundHE_nonneg h
  have : (((roundHE x).toNat : Nat) : ℚ) = (roundHE x : ℚ) := by
    have : (((roundHE x).toNat : Nat) : Int) = roundHE x := Int.toNat_of_nonneg h0
    exact_mod_cast congrArg (Int.cast (R := ℚ)) this
  rw [this]; exact roundHE_err x

/-- Signed integer number of units printed by `%.<d>f`. -/
def fixedInt (d : Nat) (x : ℚ) : Int := if x < 0 then -(fixedUnits d x : Int) else fixedUnits d x

theorem pyFloat_fmtFixed (d : Nat) (hd : 0 < d) (x : ℚ) :
    pyFloat (fmtFixed d x) = .ok ((fixedInt d x : ℚ) / 10 ^ d) := by
  set m := fixedUnits d x with hm
  have hlt : m % 10 ^ d < 10 ^ d := Nat.mod_lt _ (by positivity)
  have hfne : fracDec d (m % 10 ^ d) ≠ [] := by
    intro h; have := fracDec_length d (m % 10 ^ d); rw [h] at this; simp at this; omega
  have hform : fmtFixed d x = (if x < 0 then ['-'] else []) ++
      (natDec (m / 10 ^ d) ++ (dotted (fracDec d (m % 10 ^ d)) ++ [])) := by
    simp [fmtFixed, dotted, hfne, ← hm]
  rw [hform, pyFloat_parts (e := 0) (x < 0) (natDec_ne_nil _) (natDec_digits _) (fracDec_digits _ _)
    (by simp) (by simp [pyExp]), decVal_append, decVal_natDec, decVal_fracDec _ _ hlt, fracDec_length]
  congr 1
  have : m / 10 ^ d * 10 ^ d + m % 10 ^ d = m := by rw [mul_comm]; exact Nat.div_add_mod _ _
  rw [this]
  unfold fixedInt
  rw [← hm]
  have hz : (10 : ℚ) ^ (0 - (d : Int)) = ((10 : ℚ) ^ d)⁻¹ := by simp
  rw [hz]
  split_ifs <;> push_cast <;> ring

theorem fixedInt_err (d : Nat) (x : ℚ) : |(fixedInt d x : ℚ) / 10 ^ d - x| ≤ 1 / 2 / 10 ^ d := by
  have hp : (0 : ℚ) < 10 ^ d := by positivity
  have h := toNat_roundHE_err (x := |x| * 10 ^ d) (by positivity)
  have h' : |(fixedUnits d x : ℚ) - |x| * 10 ^ d| ≤ 1 / 2 := h
  have key : |(fixedInt d x : ℚ) - x * 10 ^ d| ≤ 1 / 2 := by
    unfold fixedInt
    split_ifs with hx
    · rw [abs_of_neg hx] at h'
      push_cast
      rw [abs_le] at h' ⊢
      constructor <;> nlinarith
    · rw [abs_of_nonneg (not_lt.mp hx)] at h'
      exact_mod_cast h'
  have : (fixedInt d x : ℚ) / 10 ^ d - x = ((fixedInt d x : ℚ) - x * 10 ^ d) / 10 ^ d := by
    field_simp
  rw [this, abs_div, abs_of_pos hp]
  exact div_le_div_of_nonneg_right key hp.le

/-! ### `%g` -/

theorem stripZeros_spec (cs : List Char) :
    ∃ k, cs = stripZeros cs ++ List.replicate k '0' := by
  refine ⟨(cs.reverse.takeWhile (· == '0')).length, ?_⟩
  have h1 : cs.reverse.takeWhile (· == '0')
      = List.replicate (cs.reverse.takeWhile (· == '0')).length '0' := by
    rw [List.eq_replicate_iff]
    refine ⟨rfl, fun b hb => ?_⟩
    have := List.all_takeWhile (p := (· == '0')) (l := cs.reverse)
    rw [List.all_eq_true] at this
    simpa using this b hb
  have h2 := List.takeWhile_append_dropWhile (p := (· == '0')) (l := cs.reverse)
  have h3 := congrArg List.reverse h2
  rw [List.reverse_append, List.reverse_reverse] at h3
  conv_lhs => rw [← h3]
  unfold stripZeros
  congr 1
  conv_lhs => rw [h1]
  rw [List.reverse_replicate]

theorem decVal_zeros (k : Nat) : decVal (List.replicate k '0') = 0 := by
  induction k with
  | zero => rfl
  | succ k ih =>
    have h : List.replicate (k+1) '0' = ['0'] ++ List.replicate k '0' := rfl
    rw [h, decVal_append, ih]; simp [decVal_single]

theorem strip_value (ip fr : List Char) (e : Int) :
    (decVal (ip ++ stripZeros fr) : ℚ) * (10 : ℚ) ^ (e - (stripZeros fr).length)
      = (decVal (ip ++ fr) : ℚ) * (10 : ℚ) ^ (e - fr.length) := by
  obtain ⟨k, hk⟩ := stripZeros_spec fr
  set s := stripZeros fr
  have hlen : fr.length = s.length + k := by rw [hk]; simp
  have h1 : decVal (ip ++ fr) = decVal (ip ++ s) * 10 ^ k := by
    conv_lhs => rw [hk, ← List.append_assoc, decVal_append, decVal_zeros]
    simp
  rw [h1, hlen]
  push_cast
  have : (e - ((s.length : Int) + k)) = (e - s.length) + (-(k : Int)) := by ring
  rw [this, zpow_add₀ (by norm_num), zpow_neg, zpow_natCast]
  field_simp

theorem strip_digits {fr : List Char} (h : ∀ c ∈ fr, isDigit c = true) :
    ∀ c ∈ stripZeros fr, isDigit c = true := by
  obtain ⟨k, hk⟩ := stripZeros_spec fr
  intro c hc
  exact h c (by rw [hk]; simp [hc])

theorem gParts_spec {x : ℚ} (hx : x ≠ 0) :
    let m := (gParts x).1
    let e := (gParts x).2
    100000 ≤ m ∧ m < 1000000 ∧ |(m : ℚ) * (10 : ℚ) ^ (e - 5) - abs x| ≤ |x| * (5 / 1000000) := by
  have hpos : 0 < |x| := abs_pos.mpr hx
  set e := Int.log 10 |x| with he
  have hlo : (10 : ℚ) ^ e ≤ |x| := by
    have := Int.zpow_log_le_self (b := 10) (by norm_num) hpos
    simpa [he] using this
  have hhi : |x| < (10 : ℚ) ^ (e + 1) := by
    have := Int.lt_zpow_succ_log_self (R := ℚ) (b := 10) (by norm_num) |x|
    simpa [he] using this
  have hpe : (0 : ℚ) < 10 ^ e := zpow_pos (by norm_num) _
  set y := |x| * (10 : ℚ) ^ (5 - e) with hy
  have hyy : y = |x| / 10 ^ e * 100000 := by
    rw [hy, zpow_sub₀ (by norm_num)]; norm_num; ring
  have hy1 : 100000 ≤ y := by
    rw [hyy]
    have : 1 ≤ |x| / 10 ^ e := by rw [le_div_iff₀ hpe]; linarith
    linarith
  have hy2 : y < 1000000 := by
    rw [hyy]
    have : |x| / 10 ^ e < 10 := by
      rw [div_lt_iff₀ hpe]; rw [zpow_add₀ (by norm_num)] at hhi; linarith [hhi]
    linarith
  have herr := toNat_roundHE_err (x := y) (by linarith)
  set m := (roundHE y).toNat with hm
  have hm1 : 100000 ≤ m := by
    by_contra hc
    have : (m : ℚ) ≤ 99999 := by exact_mod_cast (by omega : m ≤ 99999)
    rw [abs_le] at herr; linarith
  have hm2 : m ≤ 1000000 := by
    by_contra hc
    have : (1000001 : ℚ) ≤ m := by exact_mod_cast (by omega : 1000001 ≤ m)
    rw [abs_le] at herr; linarith
  have hval : |(m : ℚ) * (10 : ℚ) ^ (e - 5) - abs x| ≤ |x| * (5 / 1000000) := by
    have h5 : (10 : ℚ) ^ (e - 5) = 10 ^ e / 100000 := by
      rw [zpow_sub₀ (by norm_num)]; norm_num
    have : (m : ℚ) * (10 : ℚ) ^ (e - 5) - |x| = (m - y) * (10 ^ e / 100000) := by
      rw [h5, hyy]; field_simp
    rw [this, abs_mul, abs_of_pos (by positivity : (0 : ℚ) < 10 ^ e / 100000)]
    calc |(m : ℚ) - y| * (10 ^ e / 100000) ≤ 1 / 2 * (10 ^ e / 100000) := by gcongr
      _ ≤ 1 / 2 * (|x| / 100000) := by gcongr
      _ = |x| * (5 / 1000000) := by ring
  have hg : gParts x = if m = 1000000 then (100000, e + 1) else (m, e) := by
    simp only [gParts, ← he, ← hy, ← hm]
  rw [hg]
  split_ifs with hc
  · refine ⟨by norm_num, by norm_num, ?_⟩
    rw [hc] at hval
    have : (((100000 : Nat) : ℚ)) * (10 : ℚ) ^ (e + 1 - 5) = ((1000000 : Nat) : ℚ) * 10 ^ (e - 5) := by
      rw [show e + 1 - 5 = (e - 5) + 1 by ring, zpow_add₀ (by norm_num)]; push_cast; ring
    simp only
    rw [this]; exact hval
  · exact ⟨hm1, by omega, hval⟩

/-- Value of the `%g` representation. -/
def gVal (x : ℚ) : ℚ :=
  if x = 0 then 0 else
    (if x < 0 then -1 else 1) * (((gParts x).1 : ℚ) * (10 : ℚ) ^ ((gParts x).2 - 5))

theorem gVal_err (x : ℚ) : |gVal x - x| ≤ |x| * (5 / 1000000) := by
  unfold gVal
  split_ifs with h0 hn
  · simp [h0]
  · have h := (gParts_spec h0).2.2
    rw [abs_of_neg hn] at h ⊢
    rw [← abs_neg]
    convert h using 2; ring
  · have h := (gParts_spec h0).2.2
    rw [abs_of_nonneg (not_lt.mp hn)] at h ⊢
    convert h using 2; ring

theorem pyExp_exponent (e : Int) :
    pyExp ('e' :: (if e < 0 then '-' else '+') ::
      (List.replicate (2 - (natDec e.natAbs).length) '0' ++ natDec e.natAbs)) = .ok e := by
  set ds := List.replicate (2 - (natDec e.natAbs).length) '0' ++ natDec e.natAbs with hds
  have h1 : ∀ c ∈ ds, isDigit c = true := by
    intro c hc
    rw [hds] at hc
    simp only [List.mem_append, List.mem_replicate] at hc
    rcases hc with ⟨_, rfl⟩ | hc
    · decide
    · exact natDec_digits _ _ hc
  have hne : ds ≠ [] := by simp [hds, natDec_ne_nil]
  have hv : decVal ds = e.natAbs := by
    rw [hds, decVal_append, decVal_zeros, decVal_natDec]; simp
  split_ifs with he
  · simp only [pyExp, pyInt]
    rw [pyNat_digits hne h1, hv]
    simp only [Res.bind_ok, Res.pure_eq]
    congr 1; omega
  · simp only [pyExp, pyInt]
    rw [pyNat_digits hne h1, hv]
    simp only [Res.bind_ok, Res.pure_eq]
    congr 1; omega

theorem pyFloat_fmtG (x : ℚ) : pyFloat (fmtG x) = .ok (gVal x) := by
  unfold fmtG gVal
  by_cases h0 : x = 0
  · rw [if_pos h0, if_pos h0]; decide +kernel
  rw [if_neg h0, if_neg h0]
  obtain ⟨hm1, hm2, -⟩ := gParts_spec h0
  generalize gParts x = g at hm1 hm2 ⊢
  obtain ⟨m, e⟩ := g
  simp only at hm1 hm2 ⊢
  have hpf : ∀ f, pointFrac f = dotted (stripZeros f) := by intro f; rfl
  have gen : ∀ (ip fr ex : List Char) (e' : Int), ip ≠ [] → (∀ c ∈ ip, isDigit c = true) →
      (∀ c ∈ fr, isDigit c = true) → (∀ c ∈ ex.head?, c = 'e') → pyExp ex = .ok e' →
      decVal (ip ++ fr) = m → e' - fr.length = e - 5 →
      pyFloat ((if x < 0 then ['-'] else []) ++ (ip ++ (pointFrac fr ++ ex)))
        = .ok ((if x < 0 then -1 else 1) * ((m : ℚ) * (10 : ℚ) ^ (e - 5))) := by
    intro ip fr ex e' a1 a2 a3 a4 a5 a6 a7
    rw [hpf, pyFloat_parts (x < 0) a1 a2 (strip_digits a3) a4 a5, strip_value, a6, a7]
  have hsplit : ∀ k : Nat, decVal (natDec (m / 10 ^ k) ++ fracDec k (m % 10 ^ k)) = m := by
    intro k
    rw [decVal_append, decVal_natDec, decVal_fracDec _ _ (Nat.mod_lt _ (by positivity)),
      fracDec_length, mul_comm]
    exact Nat.div_add_mod _ _
  by_cases hsci : e < -4 ∨ 6 ≤ e
  · rw [if_pos hsci]
    have := gen (natDec (m / 10 ^ 5)) (fracDec 5 (m % 10 ^ 5)) _ e (natDec_ne_nil _)
      (natDec_digits _) (fracDec_digits _ _) (by simp) (pyExp_exponent e) (hsplit 5)
      (by rw [fracDec_length]; rfl)
    simpa [List.append_assoc] using this
  · rw [if_neg hsci]
    have := gen (natDec (m / 10 ^ (5 - e).toNat)) (fracDec (5 - e).toNat (m % 10 ^ (5 - e).toNat)) [] 0
      (natDec_ne_nil _)
      (natDec_digits _) (fracDec_digits _ _) (by simp) rfl (hsplit _)
      (by rw [fracDec_length]; omega)
    simpa [List.append_assoc] using this

/-! ## Tokens, splitting, lines -/

/-- A printable token: non-empty, without white space. -/
def IsTok (t : List Char) : Prop := t ≠ [] ∧ ∀ c ∈ t, isWs c = false

theorem isWs_digit {c : Char} (h : isDigit c = true) : isWs c = false := by
  have hn := isDigit_ne h
  have h1 : 48 ≤ c.toNat := by simp [isDigit] at h; exact h.1
  have h2 : ∀ d : Char, d.toNat < 48 → c ≠ d := by rintro d hd rfl; omega
  simp only [isWs, Bool.or_eq_false_iff, beq_eq_false_iff_ne]
  refine ⟨⟨⟨⟨⟨h2 _ ?_, h2 _ ?_⟩, h2 _ ?_⟩, h2 _ ?_⟩, by omega⟩, by omega⟩ <;> decide

theorem isTok_fmtInt (i : Int) : IsTok (fmtInt i) := by
  unfold fmtInt
  split_ifs
  · refine ⟨by simp, fun c hc => ?_⟩
    simp only [List.mem_cons] at hc
    rcases hc with rfl | hc
    · decide
    · exact isWs_digit (natDec_digits _ _ hc)
  · exact ⟨natDec_ne_nil _, fun c hc => isWs_digit (natDec_digits _ _ hc)⟩

theorem ws_sgn (x : ℚ) : ∀ c ∈ (if x < 0 then ['-'] else [] : List Char), isWs c = false := by
  split_ifs
  · decide
  · simp

theorem isTok_fmtFixed (d : Nat) (x : ℚ) : IsTok (fmtFixed d x) := by
  refine ⟨by simp [fmtFixed], fun c hc => ?_⟩
  simp only [fmtFixed, List.mem_append, List.mem_cons] at hc
  rcases hc with (hc | hc) | rfl | hc
  · exact ws_sgn x c hc
  · exact isWs_digit (natDec_digits _ _ hc)
  · decide
  · exact isWs_digit (fracDec_digits _ _ _ hc)

theorem ws_pointFrac {fr : List Char} (h : ∀ c ∈ fr, isDigit c = true) :
    ∀ c ∈ pointFrac fr, isWs c = false := by
  intro c hc
  unfold pointFrac at hc
  simp only at hc
  split_ifs at hc
  · simp at hc
  · simp only [List.mem_cons] at hc
    rcases hc with rfl | hc
    · decide
    · exact isWs_digit (strip_digits h c hc)

theorem isTok_fmtG (x : ℚ) : IsTok (fmtG x) := by
  unfold fmtG
  by_cases h0 : x = 0
  · rw [if_pos h0]; exact ⟨by simp, by decide⟩
  rw [if_neg h0]
  generalize hsg : (if x < 0 then ['-'] else [] : List Char) = sgn
  have hs : ∀ c ∈ sgn, isWs c = false := hsg ▸ ws_sgn x
  generalize gParts x = g
  obtain ⟨m, e⟩ := g
  simp only
  by_cases hsci : e < -4 ∨ 6 ≤ e
  · rw [if_pos hsci]
    refine ⟨by simp, fun c hc => ?_⟩
    generalize hes : (if e < 0 then '-' else '+') = es at hc
    have hew : isWs es = false := by rw [← hes]; split_ifs <;> decide
    simp only [List.mem_append, List.mem_cons, List.mem_replicate] at hc
    rcases hc with ((hc | hc) | hc) | rfl | rfl | hc | hc
    · exact hs c hc
    · exact isWs_digit (natDec_digits _ _ hc)
    · exact ws_pointFrac (fracDec_digits _ _) c hc
    · decide
    · exact hew
    · rw [hc.2]; decide
    · exact isWs_digit (natDec_digits _ _ hc)
  · rw [if_neg hsci]
    refine ⟨by simp [natDec_ne_nil], fun c hc => ?_⟩
    simp only [List.mem_append] at hc
    rcases hc with (hc | hc) | hc
    · exact hs c hc
    · exact isWs_digit (natDec_digits _ _ hc)
    · exact ws_pointFrac (fracDec_digits _ _) c hc

theorem splitAux_tok (t rest cur : List Char) (ht : ∀ c ∈ t, isWs c = false) :
    pySplitAux (t ++ rest) cur = pySplitAux rest (cur ++ t) := by
  induction t generalizing cur with
  | nil => simp
  | cons c t ih =>
    have hc : isWs c = false := ht c (by simp)
    rw [List.cons_append, pySplitAux]
    simp only [hc, Bool.false_eq_true, if_false]
    rw [ih _ (fun x hx => ht x (by simp [hx]))]
    simp

theorem pySplit_tok_ws {t : List Char} (ht : IsTok t) {w : Char} (hw : isWs w = true)
    (rest : List Char) : pySplit (t ++ w :: rest) = t :: pySplit rest := by
  unfold pySplit
  rw [splitAux_tok t _ _ ht.2, List.nil_append, pySplitAux]
  simp [hw, ht.1]

theorem pySplit_ws {w : Char} (hw : isWs w = true) (rest : List Char) :
    pySplit (w :: rest) = pySplit rest := by
  unfold pySplit
  rw [pySplitAux]; simp [hw]

theorem pySplit_spaces (n : Nat) (rest : List Char) :
    pySplit (List.replicate n ' ' ++ rest) = pySplit rest := by
  induction n with
  | zero => simp
  | succ n ih => rw [List.replicate_succ, List.cons_append, pySplit_ws (by decide), ih]

theorem pySplit_nil : pySplit [] = [] := rfl

/-- Tokens each preceded by a space, then a newline. -/
theorem pySplit_pre (ts : List (List Char)) (h : ∀ t ∈ ts, IsTok t) (tail : List Char)
    (htail : tail = ['\n'] ∨ ∃ r, tail = ' ' :: r) :
    pySplit (ts.flatMap (fun t => ' ' :: t) ++ tail) = ts ++ pySplit tail := by
  induction ts with
  | nil => simp
  | cons t ts ih =>
    have ih' := ih (fun x hx => h x (by simp [hx]))
    have key : ∃ w r, ts.flatMap (fun t => ' ' :: t) ++ tail = w :: r ∧ isWs w = true := by
      cases ts with
      | nil =>
        rcases htail with rfl | ⟨r, rfl⟩
        · exact ⟨_, _, rfl, by decide⟩
        · exact ⟨_, _, rfl, by decide⟩
      | cons s ss => exact ⟨' ', _, rfl, by decide⟩
    obtain ⟨w, r, hwr, hw⟩ := key
    rw [List.flatMap_cons, List.append_assoc, List.cons_append, pySplit_ws (by decide), hwr,
      pySplit_tok_ws (h t (by simp)) hw, ← pySplit_ws hw, ← hwr, ih']
    rfl

/-- Tokens each followed by a space. -/
theorem pySplit_post (ts : List (List Char)) (h : ∀ t ∈ ts, IsTok t) (tail : List Char) :
    pySplit (ts.flatMap (fun t => t ++ [' ']) ++ tail) = ts ++ pySplit tail := by
  induction ts with
  | nil => simp
  | cons t ts ih =>
    rw [List.flatMap_cons, List.append_assoc, List.append_assoc, List.singleton_append,
      pySplit_tok_ws (h t (by simp)) (by decide), ih (fun x hx => h x (by simp [hx]))]
    rfl

theorem linesAux_line (l rest cur : List Char) (hl : '\n' ∉ l) :
    linesAux (l ++ '\n' :: rest) cur = (cur ++ l ++ ['\n']) :: linesAux rest [] := by
  induction l generalizing cur with
  | nil => simp [linesAux]
  | cons c l ih =>
    have hc : c ≠ '\n' := by rintro rfl; simp at hl
    rw [List.cons_append, linesAux, if_neg hc, ih _ (by simp at hl; exact hl.2)]
    simp

/-- A text that is a sequence of newline-terminated lines is read back as these lines. -/
theorem fileLines_flatMap (ls : List (List Char)) (h : ∀ l ∈ ls, '\n' ∉ l) :
    fileLines (ls.flatMap (fun l => l ++ ['\n'])) = ls.map (fun l => l ++ ['\n']) := by
  unfold fileLines
  induction ls with
  | nil => rfl
  | cons l ls ih =>
    rw [List.flatMap_cons, List.append_assoc, List.singleton_append,
      linesAux_line _ _ _ (h l (by simp)), ih (fun x hx => h x (by simp [hx]))]
    simp

theorem tok_no_newline {t : List Char} (h : IsTok t) : '\n' ∉ t := by
  intro hc
  have := h.2 _ hc
  exact absurd this (by decide)

end CGMF.Text
