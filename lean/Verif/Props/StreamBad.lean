import Verif.Props.Stream

/-!
# C95: tables that are cut short or damaged, character by character

Readable from the statements with `Model/Stream.lean` (the stream) and `Spec/Data.lean` (how a file is laid out).
-/

namespace CGMF.Props

open CGMF CGMF.Text CGMF.Data CGMF.Spec CGMF.Stream

theorem cells_split : ∀ (a b i : Nat) (row : List ℚ) (s : In),
    cells (a + b) i row s = cells b (i + a) (cells a i row s).1 (cells a i row s).2
  | 0, b, i, row, s => by simp [cells]
  | a + 1, b, i, row, s => by
    rw [show a + 1 + b = a + b + 1 by omega, cells, cells]
    rcases getNum s with ⟨_ | v, s'⟩
    · simp only; rw [cells_split a b (i + 1) row s', show i + 1 + a = i + (a + 1) by omega]
    · simp only; rw [cells_split a b (i + 1) (row.set i v) s', show i + 1 + a = i + (a + 1) by omega]

/-- At the end of the file nothing is stored any more. -/
theorem cells_over : ∀ (m i : Nat) (row : List ℚ) (r : List Char) (f : Bool), ∃ f', cells m i row ⟨r, true, f⟩ = (row, ⟨r, true, f'⟩)
  | 0, _, _, _, f => ⟨f, rfl⟩
  | m + 1, i, row, r, f => by
    rw [cells, show getNum ⟨r, true, f⟩ = (none, ⟨r, true, true⟩) by simp [getNum, take]]
    exact cells_over m (i + 1) row r true

/-- Values, white space after each, and then something else. -/
theorem cells_then (cs : List (Cell ℚ)) (hc : ∀ c ∈ cs, c.Good convNum) (m : Nat) (row : List ℚ) (hl : cs.length ≤ row.length)
    (g0 r : List Char) (hg : ∀ x ∈ g0, isWs x = true) :
    ∃ g1, (∀ x ∈ g1, isWs x = true) ∧ cells (cs.length + m) 0 row ⟨g0 ++ (cs.flatMap Cell.text ++ r), false, false⟩ =
      cells m cs.length (cs.map Cell.val ++ row.drop cs.length) ⟨g1 ++ r, false, false⟩ := by
  by_cases h : cs = []
  · subst h; exact ⟨g0, hg, by simp⟩
  · obtain ⟨g1, h1, -, h2⟩ := cells_good cs 0 row g0 r hc h hg (by omega)
    refine ⟨g1, h1.2, ?_⟩
    rw [cells_split, h2]
    simp

/-- The values of a row that is cut after the number `w`. -/
theorem cells_cut (cs : List (Cell ℚ)) (hc : ∀ c ∈ cs, NumCell c) (n : Nat) (hn : cs.length < n) (row : List ℚ) (hl : row.length = n)
    (w : List Char) (x : ℚ) (hw : pyFloat w = .ok x) (g0 : List Char) (hg : ∀ x ∈ g0, isWs x = true) :
    ∃ f, cells n 0 row ⟨g0 ++ (cs.flatMap Cell.text ++ w), false, false⟩ =
      (cs.map Cell.val ++ x :: row.drop (cs.length + 1), ⟨[], true, f⟩) := by
  obtain ⟨m, rfl⟩ : ∃ m, n = cs.length + (m + 1) := ⟨n - cs.length - 1, by omega⟩
  obtain ⟨g1, h1, h2⟩ := cells_then cs (fun c h => numCell_good (hc c h)) (m + 1) row (by omega) g0 w hg
  rw [h2, cells]
  have := (C146_number g1 [] h1 (.inl rfl)).2 w x hw
  rw [List.append_nil] at this
  rw [this]
  simp only [List.isEmpty_nil]
  obtain ⟨f, h3⟩ := cells_over m (cs.length + 1) ((cs.map Cell.val ++ row.drop cs.length).set cs.length x) [] false
  refine ⟨f, ?_⟩
  rw [h3, List.set_append_right _ _ (by simp)]
  refine Prod.ext ?_ rfl
  simp only [List.length_map, Nat.sub_self]
  congr 1
  rw [List.drop_eq_getElem_cons (by omega)]
  rfl

/-- The row loop on complete rows and a row that is cut. -/
theorem rows_cut (n : Nat) (size : Nat) (rs : List (DRow ℚ)) (hr : ∀ r ∈ rs, Row size n r)
    (head : Cell Int) (hh : IntCell head) (h0 : 0 ≤ head.val) (h1 : head.val < size) (hd : ∀ r ∈ rs, r.head.val ≠ head.val)
    (cs : List (Cell ℚ)) (hc : ∀ c ∈ cs, NumCell c) (hn : cs.length < n) (w : List Char) (x : ℚ) (hw : pyFloat w = .ok x) (fuel : Nat) :
    ∃ z f, Stream.rows n (rs.length + 2 + fuel) none (List.replicate size (List.replicate n 0))
        ⟨rs.flatMap DRow.text ++ (head.text ++ (cs.flatMap Cell.text ++ w)), false, false⟩ =
      .ok (z, (putRows (List.replicate size (List.replicate n 0)) rs).set head.val.toNat
        (cs.map Cell.val ++ x :: List.replicate (n - cs.length - 1) 0), ⟨[], true, f⟩) := by
  have last : ∀ (z : Option Int) (g0 : List Char), (∀ x ∈ g0, isWs x = true) → ∃ z' f,
      Stream.rows n (2 + fuel) z (putRows (List.replicate size (List.replicate n 0)) rs)
        ⟨g0 ++ (head.text ++ (cs.flatMap Cell.text ++ w)), false, false⟩ =
      .ok (z', (putRows (List.replicate size (List.replicate n 0)) rs).set head.val.toNat
        (cs.map Cell.val ++ x :: List.replicate (n - cs.length - 1) 0), ⟨[], true, f⟩) := by
    intro z g0 hg
    have row : (putRows (List.replicate size (List.replicate n (0 : ℚ))) rs)[head.val.toNat]? = some (List.replicate n 0) := by
      rw [putRows_other _ rs _ (fun r h => by
        have := hd r h
        have := (hr r h).2.2.2.1
        omega), List.getElem?_replicate, if_pos (by omega)]
    obtain ⟨row', e1, e2⟩ := readAt_ok (xs := putRows (List.replicate size (List.replicate n (0 : ℚ))) rs) h0
      (by rw [putRows_length]; simpa using h1)
    obtain rfl : row' = List.replicate n 0 := Option.some.inj (e1.symm.trans row)
    obtain ⟨f, hcut⟩ := cells_cut cs hc n hn (List.replicate n 0) (by simp) w x hw head.gap hh.1.2
    refine ⟨some head.val, f, ?_⟩
    rw [show 2 + fuel = fuel + 1 + 1 by omega, Stream.rows]
    simp only [Bool.false_eq_true, if_false]
    rw [getInt_cell head (intCell_good hh) g0 _ hg]
    simp only [Option.some_or]
    rw [e2]
    simp only
    rw [hcut, Stream.rows]
    simp only [if_true]
    rw [List.drop_replicate, Nat.sub_sub]
  by_cases hne : rs = []
  · subst hne
    obtain ⟨z', f, h⟩ := last none [] (by simp)
    exact ⟨z', f, by simpa [putRows] using h⟩
  · obtain ⟨za, g1, -, -, hg1, h⟩ := rows_step n (by omega) (head.text ++ (cs.flatMap Cell.text ++ w)) rs (2 + fuel) none
      (List.replicate size (List.replicate n 0)) [] (fun r h => by simpa using row_good (hr r h))
      (fun row h => by rw [List.eq_of_mem_replicate h]; simp) (by simp) (.inl hne)
    obtain ⟨z', f, h'⟩ := last (some za) g1 hg1
    refine ⟨z', f, ?_⟩
    rw [List.nil_append, ← Nat.add_assoc] at h
    rw [h, h']

/-- **C95 is false** for files that are cut short.  A level density file that ends in the middle of a row, or of a number, is accepted
without a message: the number is taken as far as it goes, and all values after it are zero. -/
theorem C95_cut (size n : Nat) (comments : List (List Char)) (hc : ∀ l ∈ comments, Comment l) (first : List Char) (hf1 : '\n' ∉ first)
    (hf2 : first.head? ≠ some '#') (rs : List (DRow ℚ)) (hr : ∀ r ∈ rs, Row size n r)
    (head : Cell Int) (hh : IntCell head) (h0 : 0 ≤ head.val) (h1 : head.val < size) (hd : ∀ r ∈ rs, r.head.val ≠ head.val)
    (cs : List (Cell ℚ)) (hcs : ∀ c ∈ cs, NumCell c) (hn : cs.length < n) (w : List Char) (x : ℚ) (hw : pyFloat w = .ok x)
    (cwd dir : Option (List Char))
    (hf : Given cwd dir (commentText comments ++ (first ++ '\n' :: (rs.flatMap DRow.text ++ (head.text ++ (cs.flatMap Cell.text ++ w)))))) :
    ∃ tab, (∃ N, ∀ fuel, N ≤ fuel → Stream.readLDP size n fuel cwd dir = .ok tab) ∧
      tab[head.val.toNat]? = some (cs.map Cell.val ++ x :: List.replicate (n - cs.length - 1) 0) := by
  refine ⟨(putRows (List.replicate size (List.replicate n 0)) rs).set head.val.toNat
    (cs.map Cell.val ++ x :: List.replicate (n - cs.length - 1) 0), ⟨comments.length + rs.length + 4, ?_⟩, ?_⟩
  · intro fuel hfuel
    obtain ⟨k, rfl⟩ : ∃ k, fuel = comments.length + (rs.length + 2 + (1 + k) + 1) :=
      ⟨fuel - (comments.length + rs.length + 4), by omega⟩
    unfold Stream.readLDP
    rw [given_open hf]
    simp only [Bool.false_eq_true, if_false]
    obtain ⟨str', h⟩ := ldp_comments n (first ++ '\n' :: (rs.flatMap DRow.text ++ (head.text ++ (cs.flatMap Cell.text ++ w)))) none
      (List.replicate size (List.replicate n 0)) comments (rs.length + 2 + (1 + k) + 1) [] hc
    rw [h, Stream.ldpLoop, getline_line first _ hf1]
    simp only [Bool.false_eq_true, if_false]
    rw [if_neg hf2]
    obtain ⟨z, f, hz⟩ := rows_cut n size rs hr head hh h0 h1 hd cs hcs hn w x hw (1 + k)
    rw [hz]
    simp only [thenDo]
    rw [show rs.length + 2 + (1 + k) = (rs.length + 2 + k) + 1 by omega, Stream.ldpLoop, getline_bad _ rfl]
    simp
  · rw [List.getElem?_set_self (by rw [putRows_length]; simp; omega)]

/-- A stream that has failed before the end of the file stays there: the row loop goes on for ever. -/
theorem rows_stuck (n : Nat) (r : List Char) : ∀ (fuel : Nat) (za : Int) (tab : List (List ℚ)), 0 ≤ za → za < tab.length →
    Stream.rows n fuel (some za) tab ⟨r, false, true⟩ = .more
  | 0, _, _, _, _ => rfl
  | fuel + 1, za, tab, h0, h1 => by
    obtain ⟨row, hr, hra⟩ := readAt_ok (xs := tab) h0 h1
    rw [Stream.rows]
    simp only [Bool.false_eq_true, if_false]
    rw [show getInt ⟨r, false, true⟩ = (none, ⟨r, false, true⟩) from take_bad _ _ _ _ rfl]
    simp only [Option.none_or]
    rw [hra]
    simp only
    rw [cells_bad n 0 row _ rfl]
    simp only
    rw [set_same hr]
    exact rows_stuck n r fuel za tab h0 h1

/-- Less fuel does not help. -/
theorem rows_less (n : Nat) : ∀ (fuel m : Nat) (z : Option Int) (tab : List (List ℚ)) (s : In),
    Stream.rows n (m + fuel) z tab s = .more → Stream.rows n fuel z tab s = .more
  | 0, _, _, _, _, _ => rfl
  | fuel + 1, m, z, tab, s, h => by
    rw [← Nat.add_assoc, Stream.rows] at h
    rw [Stream.rows]
    split_ifs at h ⊢ with he
    revert h
    cases hx : getInt s with
    | mk r s1 =>
      simp only
      cases r.or z with
      | none => simp
      | some za =>
        simp only
        cases readAt tab za with
        | ok row => simp only; exact rows_less n fuel m _ _ _
        | exit => simp
        | ub => simp

/-- A character that cannot begin a number. -/
def NoNumber (c : Char) : Prop := isWs c = false ∧ isDigit c = false ∧ c ≠ '+' ∧ c ≠ '-' ∧ c ≠ '.'

theorem getNum_none {c : Char} (h : NoNumber c) (g t : List Char) (hg : ∀ x ∈ g, isWs x = true) :
    getNum ⟨g ++ c :: t, false, false⟩ = (some 0, ⟨c :: t, false, true⟩) := by
  obtain ⟨h1, h2, h3, h4, h5⟩ := h
  have hd := takeWhile_append_stop isWs g (c :: t) hg (by intro x hx; simp at hx; subst hx; exact h1)
  have e : takeNum (c :: t) = ([], c :: t) := by
    rw [takeNum, if_neg (by simp [h3, h4]), body_cons, h2]
    simp [h5]
  unfold getNum take
  simp only [Bool.or_self, Bool.false_eq_true, if_false]
  rw [hd.2]
  simp only
  rw [e]
  have : convNum [] = none := by decide +kernel
  simp [this]

/-- The row loop on complete rows and a row with a character that begins no number in the place of a value. -/
theorem rows_value (n : Nat) (size : Nat) (rs : List (DRow ℚ)) (hr : ∀ r ∈ rs, Row size n r)
    (head : Cell Int) (hh : IntCell head) (h0 : 0 ≤ head.val) (h1 : head.val < size)
    (cs : List (Cell ℚ)) (hc : ∀ c ∈ cs, NumCell c) (hn : cs.length < n) (c : Char) (hw : NoNumber c) (t : List Char) (fuel : Nat) :
    Stream.rows n fuel none (List.replicate size (List.replicate n 0))
        ⟨rs.flatMap DRow.text ++ (head.text ++ (cs.flatMap Cell.text ++ c :: t)), false, false⟩ = .more := by
  have last : ∀ (z : Option Int) (tab : List (List ℚ)) (g0 : List Char), tab.length = size → (∀ row ∈ tab, row.length = n) →
      (∀ x ∈ g0, isWs x = true) →
      Stream.rows n (1 + fuel) z tab ⟨g0 ++ (head.text ++ (cs.flatMap Cell.text ++ c :: t)), false, false⟩ = .more := by
    intro z tab g0 hs ht hg
    obtain ⟨row, e1, e2⟩ := readAt_ok (xs := tab) h0 (by omega)
    have rl := ht row (List.mem_of_getElem? e1)
    obtain ⟨m, hm⟩ : ∃ m, n = cs.length + (m + 1) := ⟨n - cs.length - 1, by omega⟩
    obtain ⟨g1, q1, q2⟩ := cells_then cs (fun c h => numCell_good (hc c h)) (m + 1) row (by omega) head.gap (c :: t) hh.1.2
    rw [show 1 + fuel = fuel + 1 by omega, Stream.rows]
    simp only [Bool.false_eq_true, if_false]
    rw [getInt_cell head (intCell_good hh) g0 _ hg]
    simp only [Option.some_or]
    rw [e2]
    simp only
    rw [← hm] at q2
    rw [q2, cells, getNum_none hw g1 t q1]
    simp only
    rw [cells_bad m _ _ _ rfl]
    exact rows_stuck n _ fuel _ _ h0 (by simp; omega)
  by_cases hne : rs = []
  · subst hne
    have := last none (List.replicate size (List.replicate n 0)) [] (by simp) (fun row h => by rw [List.eq_of_mem_replicate h]; simp) (by simp)
    exact rows_less n fuel 1 _ _ _ (by simpa using this)
  · obtain ⟨za, g1, -, -, hg1, h⟩ := rows_step n (by omega) (head.text ++ (cs.flatMap Cell.text ++ c :: t)) rs (1 + fuel) none
      (List.replicate size (List.replicate n 0)) [] (fun r h => by simpa using row_good (hr r h))
      (fun row h => by rw [List.eq_of_mem_replicate h]; simp) (by simp) (.inl hne)
    rw [List.nil_append, ← Nat.add_assoc] at h
    refine rows_less n fuel (rs.length + 1) _ _ _ (h.trans (last (some za) _ g1 (by rw [putRows_length]; simp) ?_ hg1))
    have : ∀ (rs : List (DRow ℚ)) (tab : List (List ℚ)), (∀ r ∈ rs, Row size n r) → (∀ row ∈ tab, row.length = n) →
        ∀ row ∈ putRows tab rs, row.length = n := by
      intro rs
      induction rs with
      | nil => intro tab _ h; exact h
      | cons r rs ih =>
        intro tab h1 h2
        refine ih (tab.set r.head.val.toNat r.vals) (fun q hq => h1 q (by simp [hq])) ?_
        intro row hrow
        rcases List.mem_or_eq_of_mem_set hrow with h | h
        · exact h2 row h
        · rw [h]; simp [DRow.vals, (h1 r (by simp)).2.1]
    exact this rs _ hr (fun row h => by rw [List.eq_of_mem_replicate h]; simp)

/-- **C95 is false** for damaged values too: when something in the place of a value begins like no number (`nan`, `inf`, a letter, a
comment), the reader of the level densities never returns. -/
theorem C95_value (size n : Nat) (comments : List (List Char)) (hc : ∀ l ∈ comments, Comment l) (first : List Char) (hf1 : '\n' ∉ first)
    (hf2 : first.head? ≠ some '#') (rs : List (DRow ℚ)) (hr : ∀ r ∈ rs, Row size n r)
    (head : Cell Int) (hh : IntCell head) (h0 : 0 ≤ head.val) (h1 : head.val < size)
    (cs : List (Cell ℚ)) (hcs : ∀ c ∈ cs, NumCell c) (hn : cs.length < n) (c : Char) (hw : NoNumber c) (t : List Char)
    (cwd dir : Option (List Char))
    (hf : Given cwd dir (commentText comments ++ (first ++ '\n' :: (rs.flatMap DRow.text ++ (head.text ++ (cs.flatMap Cell.text ++ c :: t))))))
    (fuel : Nat) : Stream.readLDP size n fuel cwd dir = .more := by
  unfold Stream.readLDP
  rw [given_open hf]
  simp only [Bool.false_eq_true, if_false]
  have key : ∀ (ls : List (List Char)) (fuel : Nat) (str : List Char), (∀ l ∈ ls, Comment l) →
      Stream.ldpLoop n fuel none (List.replicate size (List.replicate n 0))
        ⟨commentText ls ++ (first ++ '\n' :: (rs.flatMap DRow.text ++ (head.text ++ (cs.flatMap Cell.text ++ c :: t)))), false, false⟩ str = .more := by
    intro ls
    induction ls with
    | nil =>
      intro fuel str _
      cases fuel with
      | zero => rfl
      | succ fuel =>
        rw [Stream.ldpLoop, show commentText [] = [] from rfl, List.nil_append, getline_line first _ hf1]
        simp only [Bool.false_eq_true, if_false]
        rw [if_neg hf2, rows_value n size rs hr head hh h0 h1 cs hcs hn c hw t fuel]
        rfl
    | cons l ls ih =>
      intro fuel str h
      cases fuel with
      | zero => rfl
      | succ fuel =>
        rw [Stream.ldpLoop, getline_comment l (h l (by simp))]
        simp only [Bool.false_eq_true, if_false]
        rw [if_pos (h l (by simp)).1]
        exact ih fuel l (fun q hq => h q (by simp [hq]))
  exact key comments fuel [] hc

/-! ## Examples -/

namespace StreamDemo

/-- The file of the example above, cut inside its last number (`3.` of `3.25`), and with rows of three values. -/
example : ∃ tab : List (List ℚ), (∃ N, ∀ fuel, N ≤ fuel →
      Stream.readLDP 140000 3 fuel (some "# ldp\n92234 1 2\n92235 1.5 3.".toList) none = .ok tab) ∧
    tab[92235]? = some [(3/2 : ℚ), 3, 0] := by
  have gap : Gap [' '] := ⟨by decide, by decide⟩
  have := C95_cut 140000 3 ["# ldp".toList] (by intro l hl; rw [List.mem_singleton] at hl; subst hl; exact ⟨by decide, by decide⟩) "92234 1 2".toList
    (by decide) (by decide) [] (by simp) ⟨"92235".toList, [' '], 92235⟩ ⟨gap, by decide +kernel, by decide, by decide⟩ (by decide) (by decide)
    (by simp) [⟨"1.5".toList, [' '], 3/2⟩]
    (by intro c hc; rw [List.mem_singleton] at hc; subst hc; exact ⟨gap, by decide +kernel⟩) (by decide) "3.".toList 3 (by decide +kernel)
    (some "# ldp\n92234 1 2\n92235 1.5 3.".toList) none (.inl (by decide))
  simpa using this

/-- A value that is "not a number". -/
example (fuel : Nat) : Stream.readLDP 140000 2 fuel (some "92234 1 2\n92235 1.5 nan\n94240 .25 3.\n".toList) none = .more := by
  have gap : Gap [' '] := ⟨by decide, by decide⟩
  exact C95_value 140000 2 [] (by simp) "92234 1 2".toList (by decide) (by decide) [] (by simp) ⟨"92235".toList, [' '], 92235⟩
    ⟨gap, by decide +kernel, by decide, by decide⟩ (by decide) (by decide) [⟨"1.5".toList, [' '], 3/2⟩]
    (by intro c hc; rw [List.mem_singleton] at hc; subst hc; exact ⟨gap, by decide +kernel⟩) (by decide) 'n'
    ⟨by decide, by decide, by decide, by decide, by decide⟩ "an\n94240 .25 3.\n".toList _ none (.inl (by decide)) fuel

end StreamDemo

end CGMF.Props
