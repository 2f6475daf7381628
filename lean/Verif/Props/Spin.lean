import Verif.Tactics
import Verif.Model.Data
import Verif.Spec.Data
import Verif.Proofs.Data
import Verif.Props.Data
import Mathlib.Algebra.Order.Ring.Rat

/-!
# C96, C97: spin strength and pre-equilibrium fraction as a function of the files
-/

namespace CGMF.Props

open CGMF CGMF.Data CGMF.Spec
open CGMF.Text (isWs)

set_option linter.unusedSectionVars false

variable {K : Type} [Field K] [LinearOrder K]

/-! ## C96: spin scaling -/

/-- A line of the spin scaling file that holds data: neither empty nor a comment. -/
def dataLine (l : List Char) : Bool := !(decide (l.head? = some '#') || decide (l = []))

theorem spinLines_ok (row : List Char → K × K × K) (size : Nat) : ∀ (ls : List (List Char)) (n : Nat) (done rest : List (K × K × K)),
    done.length = n → n + rest.length = size → (ls.filter dataLine).length ≤ rest.length →
    spinLines row size ls n (done ++ rest) =
      .ok (done ++ (ls.filter dataLine).map row ++ rest.drop (ls.filter dataLine).length)
  | [], n, done, rest, _, _, _ => by simp [spinLines]
  | l :: ls, n, done, rest, hn, hs, hl => by
    by_cases hd : l.head? = some '#' ∨ l = []
    · have hf : dataLine l = false := by
        unfold dataLine
        rcases hd with h | h <;> simp [h]
      rw [spinLines, if_pos hd]
      rw [List.filter_cons_of_neg (by simp [hf])] at hl ⊢
      exact spinLines_ok row size ls n done rest hn hs hl
    · have hf : dataLine l = true := by
        unfold dataLine
        rw [not_or] at hd
        simp [hd.1, hd.2]
      rw [List.filter_cons_of_pos hf] at hl ⊢
      rw [List.length_cons] at hl
      cases rest with
      | nil => simp at hl
      | cons x rest =>
        rw [List.length_cons] at hl hs
        rw [spinLines, if_neg hd, writeAt_ok _ (by omega) (by simp; omega)]
        simp only
        rw [if_neg (by omega)]
        have hset : (done ++ x :: rest).set (n : Int).toNat (row l) = (done ++ [row l]) ++ rest := by
          rw [Int.toNat_natCast, List.set_append_right _ _ (by omega), hn, Nat.sub_self]
          simp
        rw [hset, spinLines_ok row size ls (n + 1) (done ++ [row l]) rest (by simp [hn]) (by omega) (by omega)]
        simp

/-- **C96** (reading).  A spin scaling file with at most `size` rows is read completely. -/
theorem C96_read (row : List Char → K × K × K) (size : Nat) (t : List Char) (cwd dir : Option (List Char))
    (hf : Given cwd dir t) (hl : ((lines t).filter dataLine).length ≤ size) :
    ∃ pad, (∀ r ∈ pad, r = (0, 0, 0)) ∧
      readSpinScaling row size cwd dir = .ok (((lines t).filter dataLine).map row ++ pad) := by
  refine ⟨(List.replicate size ((0 : K), (0 : K), (0 : K))).drop ((lines t).filter dataLine).length, ?_, ?_⟩
  · intro r hr
    exact List.eq_of_mem_replicate (List.mem_of_mem_drop hr)
  · unfold readSpinScaling
    rw [given_open hf]
    simp only [Bool.false_eq_true, if_false]
    have h := spinLines_ok row size (lines t) 0 [] (List.replicate size (0, 0, 0)) rfl (by simp) (by simpa using hl)
    simpa using h

theorem spinLines_over (row : List Char → K × K × K) (size : Nat) : ∀ (ls : List (List Char)) (n : Nat) (tab : List (K × K × K)),
    tab.length = size → n ≤ size → size < n + (ls.filter dataLine).length → spinLines row size ls n tab = .ub
  | [], n, tab, _, hn, hl => by simp at hl; omega
  | l :: ls, n, tab, ht, hn, hl => by
    by_cases hd : l.head? = some '#' ∨ l = []
    · have hf : dataLine l = false := by
        unfold dataLine
        rcases hd with h | h <;> simp [h]
      rw [spinLines, if_pos hd]
      rw [List.filter_cons_of_neg (by simp [hf])] at hl
      exact spinLines_over row size ls n tab ht hn hl
    · have hf : dataLine l = true := by
        unfold dataLine
        rw [not_or] at hd
        simp [hd.1, hd.2]
      rw [List.filter_cons_of_pos hf, List.length_cons] at hl
      rw [spinLines, if_neg hd]
      by_cases hns : n < size
      · rw [writeAt_ok _ (by omega) (by omega)]
        simp only
        rw [if_neg (by omega)]
        exact spinLines_over row size ls (n + 1) _ (by simp [ht]) (by omega) (by omega)
      · unfold writeAt
        rw [if_neg (by rw [Int.toNat_natCast]; omega)]

/-- **C96 is false** for longer files: with more than `size` rows the table is written beyond its end before the test that
should stop the program. -/
theorem C96_refuted (row : List Char → K × K × K) (size : Nat) (t : List Char) (cwd dir : Option (List Char))
    (hf : Given cwd dir t) (hl : size < ((lines t).filter dataLine).length) :
    readSpinScaling row size cwd dir = .ub := by
  unfold readSpinScaling
  rw [given_open hf]
  simp only [Bool.false_eq_true, if_false]
  exact spinLines_over row size (lines t) 0 _ (by simp) (by omega) (by omega)

/-- **C96** (strength).  Without a value given by the user the spin strength is the line of the first row for the nucleus
(negative number for spontaneous fission), at incident energy zero for a negative energy, and the documented default without
a row. -/
theorem C96_partial (row : List Char → K × K × K) (trunc : K → Int) (htr : trunc 0 = 0) (size : Nat) (t : List Char)
    (cwd dir : Option (List Char)) (hf : Given cwd dir t) (hl : ((lines t).filter dataLine).length ≤ size)
    (def0 defs defsf alpha0 : K) (ha : alpha0 ≤ 0) (zaid : Int) (hz : zaid ≠ 0) (sf : Bool) :
    ∃ tab, readSpinScaling row size cwd dir = .ok tab ∧ ∀ einc : K, 0 ≤ einc →
      (∀ pre r post, ((lines t).filter dataLine).map row = pre ++ r :: post →
        (∀ q ∈ pre, trunc q.1 ≠ if sf then -zaid else zaid) → trunc r.1 = (if sf then -zaid else zaid) →
        spinStrength trunc tab def0 defs defsf alpha0 zaid sf einc = r.2.1 + r.2.2 * einc) ∧
      ((∀ q ∈ ((lines t).filter dataLine).map row, trunc q.1 ≠ if sf then -zaid else zaid) →
        spinStrength trunc tab def0 defs defsf alpha0 zaid sf einc = if sf then defsf else def0 + defs * einc) := by
  obtain ⟨pad, hp, h⟩ := C96_read row size t cwd dir hf hl
  refine ⟨_, h, fun einc he => ⟨?_, ?_⟩⟩
  · intro pre r post hrows hpre hr
    have hfind : (((lines t).filter dataLine).map row ++ pad).find?
        (fun r => decide ((if sf then -zaid else zaid) = trunc r.1)) = some r := by
      rw [hrows, List.append_assoc, List.find?_append, List.find?_eq_none.mpr (by
        intro q hq; simpa using (hpre q hq).symm)]
      simp [hr]
    unfold spinStrength spinCoef
    rw [if_neg (not_lt.mpr ha), hfind]
    simp only
    rw [if_neg (not_lt.mpr he)]
  · intro hn
    have hfind : (((lines t).filter dataLine).map row ++ pad).find?
        (fun r => decide ((if sf then -zaid else zaid) = trunc r.1)) = none := by
      rw [List.find?_eq_none]
      intro q hq
      rcases List.mem_append.mp hq with hq | hq
      · simpa using (hn q hq).symm
      · rw [hp q hq, htr]
        cases sf <;> simp [hz]
    unfold spinStrength spinCoef
    rw [if_neg (not_lt.mpr ha), hfind]
    simp only
    rw [if_neg (not_lt.mpr he)]
    cases sf <;> simp

/-- **C96** (user value).  A positive value given by the user is used for every nucleus and energy. -/
theorem C96_user (trunc : K → Int) (tab : List (K × K × K)) (def0 defs defsf alpha0 : K) (ha : 0 < alpha0) (zaid : Int)
    (sf : Bool) (einc : K) : spinStrength trunc tab def0 defs defsf alpha0 zaid sf einc = alpha0 := by
  unfold spinStrength; rw [if_pos ha]

/-- One row of the spin scaling file, for the examples. -/
def spinRowX (l : List Char) : ℚ × ℚ × ℚ :=
  match Text.pySplit l with
  | a :: b :: c :: _ => ((numX a).getD 0, (numX b).getD 0, (numX c).getD 0)
  | _ => (0, 0, 0)

/-- Two rows of the shipped file. -/
def spinFileX : List Char := "# ZAID\n 92236 1.45 0.070 # U235\n-98252 1.70 0.000 # Cf252\n".toList

/-- Two rows of the shipped file: neutron-induced fission of uranium-235 at 2 MeV, spontaneous fission of another
nucleus by default. -/
example : ∃ tab, readSpinScaling spinRowX 15 none (some spinFileX) = .ok tab ∧
    spinStrength (fun x : ℚ => ⌊x⌋) tab (3 / 2) (71 / 1000) (13 / 10) 0 92236 false 2 = 145 / 100 + 70 / 1000 * 2 := by
  obtain ⟨tab, h, h1⟩ := C96_partial spinRowX (fun x : ℚ => ⌊x⌋) (by norm_num) 15 spinFileX none (some spinFileX)
    (Or.inr ⟨rfl, rfl⟩) (by decide +kernel) (3 / 2) (71 / 1000) (13 / 10) 0 (le_refl _) 92236 (by norm_num) false
  exact ⟨tab, h, (h1 2 (by norm_num)).1 [] (92236, 145 / 100, 70 / 1000) [(-98252, 170 / 100, 0)] (by decide +kernel)
    (by simp) (by decide +kernel)⟩

/-- A third row in a table of two is an out-of-bounds write. -/
example : readSpinScaling spinRowX 2 none (some (spinFileX ++ " 92234 1.68 0.055\n".toList)) = .ub :=
  C96_refuted spinRowX 2 _ none _ (Or.inr ⟨rfl, rfl⟩) (by decide +kernel)

/-! ## C97: pre-equilibrium fraction -/

theorem preeqCount_good (atoi : List Char → Int) (line r : List Char) (hl : '\n' ∉ line) (hh : line.head? ≠ some '#') :
    ∀ (comments : List (List Char)) (fuel : Nat) (str : List Char), (∀ l ∈ comments, Comment l) →
    preeqCount atoi (comments.length + 1 + fuel) ⟨commentText comments ++ (line ++ '\n' :: r), false, false⟩ str =
      .ok (atoi (line.take 1), ⟨r, false, false⟩)
  | [], fuel, str, _ => by
    have ht : line.take 1 ≠ ['#'] := by
      cases line with
      | nil => simp
      | cons c l => simpa using hh
    rw [show ([] : List (List Char)).length + 1 + fuel = fuel + 1 by simp; omega, preeqCount]
    simp only [commentText, List.flatMap_nil, List.nil_append]
    rw [getline_line line r hl]
    simp only
    rw [if_neg ht]
  | l :: ls, fuel, str, h => by
    have hc := h l (by simp)
    have ht : l.take 1 = ['#'] := by
      cases hl0 : l with
      | nil => rw [hl0] at hc; exact absurd hc.1 (by simp)
      | cons c l' => rw [hl0] at hc; have := hc.1; simp at this; simp [this]
    rw [show (l :: ls).length + 1 + fuel = ls.length + 1 + fuel + 1 by simp; omega, preeqCount, getline_comment l hc]
    simp only
    rw [if_pos ht]
    exact preeqCount_good atoi line r hl hh ls fuel l (fun q hq => h q (by simp [hq]))

/-- A row of the pre-equilibrium file: target and four parameters. -/
def PGood (inum : List Char → Option Int) (num : List Char → Option K) (r : DRow K) : Prop :=
  r.head.Good inum ∧ r.cells.length = 4 ∧ ∀ c ∈ r.cells, c.Good num

theorem preeqRows_good (inum : List Char → Option Int) (num : List Char → Option K) (t : List Char) :
    ∀ (rows : List (DRow K)) (done rest : List (Int × List K)) (g0 : List Char),
    (∀ r ∈ rows, PGood inum num r) → (∀ q ∈ rest, q.2.length = 4) → (∀ x ∈ g0, isWs x = true) → rows.length ≤ rest.length →
    preeqRows inum num rows.length done.length (done ++ rest) ⟨g0 ++ (rows.flatMap DRow.text ++ t), false, false⟩ =
      .ok (done ++ rows.map (fun r => (r.head.val, r.vals)) ++ rest.drop rows.length)
  | [], done, rest, g0, _, _, _, _ => by simp [preeqRows]
  | r :: rows, done, rest, g0, hr, hq, hg, hl => by
    obtain ⟨hh, hlen, hcs⟩ := hr r (by simp)
    cases rest with
    | nil => simp at hl
    | cons x rest =>
      have hne : r.cells ≠ [] := by rintro h; rw [h] at hlen; simp at hlen
      obtain ⟨g1, hg1, -, hc⟩ := readCells_good num r.cells 0 x.2 r.head.gap (rows.flatMap DRow.text ++ t) hcs hne hh.2.1.2
        (by rw [hlen, hq x (by simp)])
      rw [hlen] at hc
      have hra : readAt (done ++ x :: rest) (done.length : Int) = .ok x := by
        unfold readAt
        rw [dif_pos ⟨by omega, by simp⟩]
        simp
      have etext : g0 ++ ((r :: rows).flatMap DRow.text ++ t) =
          g0 ++ (r.head.text ++ (r.cells.flatMap Cell.text ++ (rows.flatMap DRow.text ++ t))) := by
        simp [DRow.text]
      have hrow : preeqRow inum num ⟨g0 ++ ((r :: rows).flatMap DRow.text ++ t), false, false⟩ x =
          ((r.head.val, r.vals), ⟨g1 ++ (rows.flatMap DRow.text ++ t), false, false⟩) := by
        unfold preeqRow
        rw [etext, extract_cell 0 inum r.head hh g0 _ hg]
        simp only [Option.getD_some]
        rw [hc]
        simp [DRow.vals]
      rw [List.length_cons, preeqRows, hra]
      simp only
      rw [hrow]
      simp only
      have hset : (done ++ x :: rest).set done.length (r.head.val, r.vals) = (done ++ [(r.head.val, r.vals)]) ++ rest := by
        rw [List.set_append_right _ _ (le_refl _), Nat.sub_self]; simp
      have ih := preeqRows_good inum num t rows (done ++ [(r.head.val, r.vals)]) rest g1 (fun q hq' => hr q (by simp [hq']))
        (fun q hq' => hq q (by simp [hq'])) hg1.2 (by simp at hl; omega)
      rw [List.length_append, List.length_singleton] at ih
      rw [hset, ih]
      simp

/-- **C97** (what holds).  When the line after the comments gives the number of rows with one digit, the fraction for every
tabulated target is the documented function of the incident energy with the parameters of its first row, and zero for every
other target. -/
theorem C97_partial (atoi : List Char → Int) (inum : List Char → Option Int) (num : List Char → Option K) (exp : K → K)
    (size : Nat) (comments : List (List Char)) (hc : ∀ l ∈ comments, Comment l)
    (line : List Char) (hl : '\n' ∉ line) (hh : line.head? ≠ some '#')
    (rows : List (DRow K)) (hcount : atoi (line.take 1) = rows.length) (hs : rows.length ≤ size)
    (hr : ∀ r ∈ rows, PGood inum num r) (t : List Char) (cwd dir : Option (List Char))
    (hf : Given cwd dir (commentText comments ++ (line ++ '\n' :: (rows.flatMap DRow.text ++ t)))) :
    ∃ tab, (∃ N, ∀ fuel, N ≤ fuel → readPreeq atoi inum num size fuel cwd dir = .ok ((rows.length : Int), tab)) ∧
      ∀ (target : Int) (e : K),
        (∀ pre r post a0 e0 s f0, rows = pre ++ r :: post → (∀ q ∈ pre, q.head.val ≠ target) → r.head.val = target →
          r.vals = [a0, e0, s, f0] →
          preeqFraction exp rows.length tab target e = .ok (1 / (1 + exp ((a0 - e) / e0)) + s * e + f0)) ∧
        ((∀ q ∈ rows, q.head.val ≠ target) → preeqFraction exp rows.length tab target e = .ok 0) := by
  have hread := preeqRows_good inum num t rows [] (List.replicate size (0, [0, 0, 0, 0])) []
    hr (fun q hq => by rw [List.eq_of_mem_replicate hq]; rfl) (by simp) (by simpa using hs)
  simp only [List.nil_append, List.length_nil] at hread
  refine ⟨rows.map (fun r => (r.head.val, r.vals)) ++ (List.replicate size (0, [0, 0, 0, 0])).drop rows.length,
    ⟨comments.length + 1, fun fuel hfuel => ?_⟩, ?_⟩
  · obtain ⟨k, rfl⟩ : ∃ k, fuel = comments.length + 1 + k := ⟨fuel - (comments.length + 1), by omega⟩
    unfold readPreeq
    rw [given_open hf]
    simp only [Bool.false_eq_true, if_false]
    rw [preeqCount_good atoi line _ hl hh comments k [] hc]
    simp only [thenDo, hcount]
    rw [Int.toNat_natCast, hread]
  · intro target e
    have htake : (rows.map (fun r => (r.head.val, r.vals)) ++
        (List.replicate size ((0 : Int), [(0 : K), 0, 0, 0])).drop rows.length).take (rows.length : Int).toNat =
        rows.map (fun r => (r.head.val, r.vals)) := by
      rw [Int.toNat_natCast, List.take_left' (by simp)]
    refine ⟨?_, ?_⟩
    · intro pre r post a0 e0 s f0 hrows hpre hrt hv
      unfold preeqFraction
      rw [htake, hrows, List.map_append, List.map_cons, List.find?_append, List.find?_eq_none.mpr (by
        intro q hq
        obtain ⟨d, hd, rfl⟩ := List.mem_map.mp hq
        simpa using (hpre d hd).symm)]
      simp [hrt, hv]
    · intro hn
      unfold preeqFraction
      rw [htake, List.find?_eq_none.mpr (by
        intro q hq
        obtain ⟨d, hd, rfl⟩ := List.mem_map.mp hq
        simpa using (hn d hd).symm)]
      simp only
      rw [if_pos (by simp)]

/-- **C97 is false** beyond nine rows: of the number of rows only the first digit is read, so with a count of `10` and ten
targets only the first one is known and all others have fraction zero. -/
theorem C97_refuted (inum : List Char → Option Int) (num : List Char → Option K) (exp : K → K)
    (size : Nat) (comments : List (List Char)) (hc : ∀ l ∈ comments, Comment l)
    (atoi : List Char → Int) (ha : atoi ['1'] = 1)
    (r0 : DRow K) (rows : List (DRow K)) (hs : 0 < size)
    (hr : PGood inum num r0) (cwd dir : Option (List Char))
    (hf : Given cwd dir (commentText comments ++ ("10".toList ++ '\n' :: (r0 :: rows).flatMap DRow.text))) :
    ∃ tab, (∃ N, ∀ fuel, N ≤ fuel → readPreeq atoi inum num size fuel cwd dir = .ok (1, tab)) ∧
      ∀ (target : Int) (e : K), target ≠ r0.head.val → preeqFraction exp 1 tab target e = .ok 0 := by
  obtain ⟨tab, hN, h⟩ := C97_partial atoi inum num exp size comments hc "10".toList (by decide) (by decide) [r0] ha
    hs (fun r h => by simp at h; rw [h]; exact hr) (rows.flatMap DRow.text) cwd dir (by simpa using hf)
  exact ⟨tab, hN, fun target e ht => (h target e).2 (fun q hq => by simp at hq; rw [hq]; exact ht.symm)⟩

/-- A file of comments only makes the reader run for ever. -/
theorem C97_comments (atoi : List Char → Int) (inum : List Char → Option Int) (num : List Char → Option K) (size fuel : Nat)
    (comments : List (List Char)) (hc : ∀ l ∈ comments, Comment l) (last : List Char) (hl : Comment last)
    (cwd dir : Option (List Char)) (hf : Given cwd dir (commentText comments ++ last)) :
    readPreeq atoi inum num size fuel cwd dir = .more := by
  have hash : ∀ l : List Char, Comment l → l.take 1 = ['#'] := by
    intro l h
    cases hl0 : l with
    | nil => rw [hl0] at h; exact absurd h.1 (by simp)
    | cons c l' => rw [hl0] at h; have := h.1; simp at this; simp [this]
  have stuck : ∀ (fuel : Nat) (str r : List Char), str.take 1 = ['#'] → preeqCount atoi fuel ⟨r, true, true⟩ str = .more := by
    intro fuel
    induction fuel with
    | zero => intros; rfl
    | succ fuel ih => intro str r h; rw [preeqCount, getline_bad _ rfl]; simp only; rw [if_pos h]; exact ih str r h
  have stuck' : ∀ (fuel : Nat) (str r : List Char), str.take 1 = ['#'] → preeqCount atoi fuel ⟨r, true, false⟩ str = .more := by
    intro fuel str r h
    cases fuel with
    | zero => rfl
    | succ fuel => rw [preeqCount, getline_bad _ rfl]; simp only; rw [if_pos h]; exact stuck fuel str r h
  have hcnt : ∀ (comments : List (List Char)) (fuel : Nat) (str : List Char), (∀ l ∈ comments, Comment l) →
      preeqCount atoi fuel ⟨commentText comments ++ last, false, false⟩ str = .more := by
    intro comments
    induction comments with
    | nil =>
      intro fuel str _
      cases fuel with
      | zero => rfl
      | succ fuel =>
        rw [preeqCount]
        simp only [commentText, List.flatMap_nil, List.nil_append]
        rw [getline_last last hl.2]
        simp only
        rw [if_pos (hash last hl)]
        cases hle : last.isEmpty
        · exact stuck' fuel last [] (hash last hl)
        · exact stuck fuel last [] (hash last hl)
    | cons l ls ih =>
      intro fuel str h
      cases fuel with
      | zero => rfl
      | succ fuel =>
        rw [preeqCount, getline_comment l (h l (by simp))]
        simp only
        rw [if_pos (hash l (h l (by simp)))]
        exact ih fuel l (fun q hq => h q (by simp [hq]))
  unfold readPreeq
  rw [given_open hf]
  simp only [Bool.false_eq_true, if_false]
  rw [hcnt comments fuel [] hc]
  rfl

/-- Two rows of the shipped file. -/
def preX (z : String) (a : Int) : DRow ℚ :=
  ⟨⟨z.toList, [' '], a⟩, [⟨"11.913".toList, [' '], 11913 / 1000⟩, ⟨"12.948".toList, [' '], 12948 / 1000⟩,
    ⟨"-0.01".toList, [' '], -1 / 100⟩, ⟨"-0.294".toList, ['\n'], -294 / 1000⟩]⟩

theorem preX_good (r : DRow ℚ) (h : r = preX "92235" 92235 ∨ r = preX "92238" 92238) : PGood inumX numX r := by
  rcases h with rfl | rfl <;>
  · refine ⟨⟨by unfold Word; decide +kernel, by unfold Gap; decide +kernel, by decide +kernel⟩, rfl, ?_⟩
    intro c hc
    simp only [preX, List.mem_cons, List.not_mem_nil, or_false] at hc
    rcases hc with rfl | rfl | rfl | rfl <;>
      exact ⟨by unfold Word; decide +kernel, by unfold Gap; decide +kernel, by decide +kernel⟩

/-- With the count 2 the fraction of uranium-238 uses its row. -/
example (exp : ℚ → ℚ) (e : ℚ) : ∃ tab,
    (∃ N, ∀ fuel, N ≤ fuel → readPreeq atoiX inumX numX 10 fuel none
      (some "# fractions\n2\n92235 11.913 12.948 -0.01 -0.294\n92238 11.913 12.948 -0.01 -0.294\n".toList) = .ok (2, tab)) ∧
    preeqFraction exp 2 tab 92238 e = .ok (1 / (1 + exp ((11913 / 1000 - e) / (12948 / 1000))) + -1 / 100 * e + -294 / 1000) := by
  obtain ⟨tab, hN, h⟩ := C97_partial atoiX inumX numX exp 10 ["# fractions".toList]
    (by intro l hl; simp at hl; subst hl; unfold Comment; decide +kernel) ['2'] (by decide) (by decide)
    [preX "92235" 92235, preX "92238" 92238] (by decide +kernel) (by decide)
    (fun r h => preX_good r (by simpa using h)) [] none
    (some "# fractions\n2\n92235 11.913 12.948 -0.01 -0.294\n92238 11.913 12.948 -0.01 -0.294\n".toList)
    (Or.inr ⟨rfl, by decide +kernel⟩)
  exact ⟨tab, hN, (h 92238 e).1 [preX "92235" 92235] (preX "92238" 92238) [] _ _ _ _ rfl (by decide +kernel) rfl rfl⟩

end CGMF.Props
