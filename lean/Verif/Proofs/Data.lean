import Verif.Tactics
import Verif.Model.Data
import Verif.Spec.Data

/-! # Lemmas on streams and on the row readers -/

set_option linter.unusedSectionVars false

namespace CGMF.Data

open CGMF CGMF.Spec
open CGMF.Text (isWs)

variable {K : Type} [Field K] [LinearOrder K]

theorem takeWhile_append_stop {α : Type} (p : α → Bool) : ∀ (a b : List α), (∀ c ∈ a, p c = true) →
    (∀ c, b.head? = some c → p c = false) → (a ++ b).takeWhile p = a ∧ (a ++ b).dropWhile p = b
  | [], b, _, hb => by
    cases b with
    | nil => simp
    | cons x xs => simp [hb x rfl]
  | c :: a, b, ha, hb => by
    have hc := ha c (by simp)
    have ih := takeWhile_append_stop p a b (fun d hd => ha d (by simp [hd])) hb
    simp [hc, ih.1, ih.2]

/-- `getline` on a stream that starts with a complete line. -/
theorem getline_line (a r : List Char) (ha : '\n' ∉ a) (str : List Char) :
    getline ⟨a ++ '\n' :: r, false, false⟩ str = (a, ⟨r, false, false⟩) := by
  have h := takeWhile_append_stop (fun c => decide (c ≠ '\n')) a ('\n' :: r)
    (fun c hc => by simp; rintro rfl; exact ha hc) (by simp)
  unfold getline
  simp only [Bool.or_self, Bool.false_eq_true, if_false]
  rw [h.1, h.2]

/-- `getline` at the end of a file without trailing newline. -/
theorem getline_last (a : List Char) (ha : '\n' ∉ a) (str : List Char) :
    getline ⟨a, false, false⟩ str = (a, ⟨[], true, a.isEmpty⟩) := by
  have h := takeWhile_append_stop (fun c => decide (c ≠ '\n')) a []
    (fun c hc => by simp; rintro rfl; exact ha hc) (by simp)
  rw [List.append_nil] at h
  unfold getline
  simp only [Bool.or_self, Bool.false_eq_true, if_false]
  rw [h.1, h.2]

theorem getline_bad (s : In) (h : (s.eof || s.fail) = true) (str : List Char) :
    getline s str = (str, ⟨s.rest, s.eof, true⟩) := by
  unfold getline; rw [if_pos h]

theorem linesAux_line : ∀ (a r cur : List Char), '\n' ∉ a → linesAux (a ++ '\n' :: r) cur = (cur ++ a) :: linesAux r []
  | [], r, cur, _ => by simp [linesAux]
  | c :: a, r, cur, h => by
    have hc : c ≠ '\n' := by rintro rfl; exact h (by simp)
    rw [List.cons_append, linesAux, if_neg hc, linesAux_line a r _ (fun hh => h (by simp [hh]))]
    simp

theorem linesAux_last : ∀ (a cur : List Char), '\n' ∉ a → linesAux a cur = if cur ++ a = [] then [] else [cur ++ a]
  | [], cur, _ => by simp [linesAux]
  | c :: a, cur, h => by
    have hc : c ≠ '\n' := by rintro rfl; exact h (by simp)
    rw [linesAux, if_neg hc, linesAux_last a _ (fun hh => h (by simp [hh]))]
    simp

/-- `lines` is what a `getline` loop sees: the first line is what `getline` returns, and the loop goes on with the
rest of the stream, or ends. -/
theorem getline_lines (t str : List Char) :
    (lines t = [] ∧ (getline ⟨t, false, false⟩ str).2.fail = true) ∨
    ∃ l s, getline ⟨t, false, false⟩ str = (l, s) ∧ s.fail = false ∧
      lines t = l :: (if s.eof then [] else lines s.rest) := by
  by_cases h : '\n' ∈ t
  · obtain ⟨a, r, rfl, ha⟩ := List.append_of_mem h |>.elim fun a h' => h'.elim fun r h'' => by
      classical
      -- take the first newline
      have : ∃ a r, t = a ++ '\n' :: r ∧ '\n' ∉ a := by
        clear h' h''
        induction t with
        | nil => simp at h
        | cons c t ih =>
          by_cases hc : c = '\n'
          · exact ⟨[], t, by simp [hc], by simp⟩
          · have : '\n' ∈ t := by
              rcases List.mem_cons.mp h with h | h
              · exact absurd h.symm hc
              · exact h
            obtain ⟨a, r, h1, h2⟩ := ih this
            exact ⟨c :: a, r, by simp [h1], by simp [h2, Ne.symm hc]⟩
      exact this
    right
    refine ⟨a, _, getline_line a r ha str, rfl, ?_⟩
    unfold lines
    rw [linesAux_line a r [] ha]
    simp
  · rw [getline_last t h str]
    unfold lines
    rw [linesAux_last t [] h]
    cases t with
    | nil => left; simp
    | cons c t => right; exact ⟨_, _, rfl, rfl, by simp⟩

/-- `>>` on a number after white space. -/
theorem extract_cell {α : Type} (zero : α) (num : List Char → Option α) (c : Cell α) (hc : c.Good num)
    (g0 r : List Char) (hg : ∀ x ∈ g0, isWs x = true) :
    extract zero num ⟨g0 ++ (c.text ++ r), false, false⟩ = (some c.val, ⟨c.gap ++ r, false, false⟩) := by
  obtain ⟨⟨hw, hw'⟩, ⟨hgp, hgp'⟩, hn⟩ := hc
  have h1 := takeWhile_append_stop isWs g0 (c.text ++ r) hg (by
    intro x hx
    unfold Cell.text at hx
    cases hcw : c.word with
    | nil => exact absurd hcw hw
    | cons y ys => rw [hcw] at hx; simp at hx; subst hx; exact hw' y (by rw [hcw]; simp))
  have h2 := takeWhile_append_stop (fun x => !isWs x) c.word (c.gap ++ r) (fun x hx => by simp [hw' x hx]) (by
    intro x hx
    cases hcg : c.gap with
    | nil => exact absurd hcg hgp
    | cons y ys => rw [hcg] at hx; simp at hx; subst hx; simp [hgp' y (by rw [hcg]; simp)])
  have hne : (c.gap ++ r).isEmpty = false := by
    cases hcg : c.gap with
    | nil => exact absurd hcg hgp
    | cons y ys => rfl
  have e : c.text ++ r = c.word ++ (c.gap ++ r) := by simp [Cell.text]
  unfold extract
  simp only [Bool.or_self, Bool.false_eq_true, if_false]
  rw [h1.2, e]
  cases hcw : c.word with
  | nil => exact absurd hcw hw
  | cons y ys =>
    rw [hcw] at h2 hn
    simp only [List.cons_append] at h2 ⊢
    rw [h2.1, h2.2]
    simp only [hn, hne]

/-- `>>` at the end of the file. -/
theorem extract_end {α : Type} (zero : α) (num : List Char → Option α) (g : List Char) (hg : ∀ x ∈ g, isWs x = true) :
    extract zero num ⟨g, false, false⟩ = (none, ⟨[], true, true⟩) := by
  have h1 := takeWhile_append_stop isWs g [] hg (by simp)
  rw [List.append_nil] at h1
  unfold extract
  simp only [Bool.or_self, Bool.false_eq_true, if_false]
  rw [h1.2]

theorem extract_bad {α : Type} (zero : α) (num : List Char → Option α) (s : In) (h : s.fail = true) :
    extract zero num s = (none, s) := by
  obtain ⟨r, e, f⟩ := s
  simp only at h
  subst h
  unfold extract
  simp

theorem readCells_bad (num : List Char → Option K) : ∀ (m i : Nat) (row : List K) (s : In), s.fail = true →
    readCells num m i row s = (row, s)
  | 0, _, _, _, _ => rfl
  | m + 1, i, row, s, h => by
    rw [readCells, extract_bad 0 num s h]
    exact readCells_bad num m (i + 1) row s h

/-- Reading the cells of a row. -/
theorem readCells_good (num : List Char → Option K) : ∀ (cs : List (Cell K)) (i : Nat) (row : List K) (g0 r : List Char),
    (∀ c ∈ cs, c.Good num) → cs ≠ [] → (∀ x ∈ g0, isWs x = true) → row.length = i + cs.length →
    ∃ g1, Gap g1 ∧ cs.getLast?.map Cell.gap = some g1 ∧ readCells num cs.length i row ⟨g0 ++ (cs.flatMap Cell.text ++ r), false, false⟩ =
      (row.take i ++ cs.map Cell.val, ⟨g1 ++ r, false, false⟩)
  | [], _, _, _, _, _, h, _, _ => absurd rfl h
  | c :: cs, i, row, g0, r, hc, _, hg, hl => by
    have hc0 := hc c (by simp)
    rw [List.flatMap_cons, List.append_assoc, List.length_cons, readCells, extract_cell 0 num c hc0 g0 _ hg]
    simp only
    simp only [List.length_cons] at hl
    have hset : (row.set i c.val).take (i + 1) = row.take i ++ [c.val] := by
      rw [List.take_set, List.take_succ_eq_append_getElem (by omega), List.set_append_right _ _ (by simp)]
      simp [Nat.min_eq_left (by omega : i ≤ row.length)]
    cases cs with
    | nil =>
      refine ⟨c.gap, hc0.2.1, rfl, ?_⟩
      simp only [List.length_nil, readCells, List.flatMap_nil, List.nil_append]
      refine Prod.ext ?_ rfl
      simp only [List.map_cons, List.map_nil]
      rw [← hset, List.take_of_length_le]
      simp at hl ⊢; omega
    | cons d ds =>
      obtain ⟨g1, hg1, hl1, h⟩ := readCells_good num (d :: ds) (i + 1) (row.set i c.val) c.gap r
        (fun x hx => hc x (by simp [hx])) (by simp) hc0.2.1.2 (by simp at hl ⊢; omega)
      refine ⟨g1, hg1, by rw [← hl1]; simp, ?_⟩
      rw [h, hset]
      simp

/-- The table after the rows have been stored one after the other. -/
def putRows (tab : List (List K)) (rows : List (DRow K)) : List (List K) :=
  rows.foldl (fun t r => t.set r.head.val.toNat r.vals) tab

theorem putRows_length (rows : List (DRow K)) : ∀ tab : List (List K), (putRows tab rows).length = tab.length := by
  induction rows with
  | nil => intro tab; rfl
  | cons r rows ih => intro tab; show (putRows (tab.set _ _) rows).length = _; rw [ih]; simp

theorem readAt_ok {α : Type} {xs : List α} {z : Int} (h0 : 0 ≤ z) (h1 : z < xs.length) :
    ∃ x, xs[z.toNat]? = some x ∧ readAt xs z = .ok x := by
  have h : z.toNat < xs.length := by omega
  exact ⟨xs[z.toNat], List.getElem?_eq_getElem h, by unfold readAt; rw [dif_pos ⟨h0, h⟩]⟩

/-- The row loop stores the rows one after the other. -/
theorem readRows_step (inum : List Char → Option Int) (num : List Char → Option K) (n : Nat) (hn : 0 < n) (t : List Char) :
    ∀ (rows : List (DRow K)) (fuel : Nat) (z : Option Int) (tab : List (List K)) (g0 : List Char),
    (∀ r ∈ rows, r.Good inum num tab.length n) → (∀ row ∈ tab, row.length = n) → (∀ x ∈ g0, isWs x = true) →
    (rows ≠ [] ∨ ∃ za, z = some za ∧ 0 ≤ za ∧ za < tab.length) →
    ∃ (za : Int) (g1 : List Char), 0 ≤ za ∧ za < tab.length ∧ (∀ x ∈ g1, isWs x = true) ∧
      readRows inum num n (rows.length + fuel) z tab ⟨g0 ++ (rows.flatMap DRow.text ++ t), false, false⟩ =
      readRows inum num n fuel (some za) (putRows tab rows) ⟨g1 ++ t, false, false⟩
  | [], fuel, z, tab, g0, _, _, hg, hz => by
    obtain ⟨za, rfl, h0, h1⟩ := hz.resolve_left (by simp)
    exact ⟨za, g0, h0, h1, hg, by simp [putRows]⟩
  | r :: rows, fuel, z, tab, g0, hr, ht, hg, _ => by
    obtain ⟨hh, hlen, hcs, h0, h1⟩ := hr r (by simp)
    obtain ⟨row, hrow, hra⟩ := readAt_ok h0 h1
    have hrl : row.length = n := ht row (List.mem_of_getElem? hrow)
    have hne : r.cells ≠ [] := by rintro h; rw [h] at hlen; simp at hlen; omega
    obtain ⟨g1, hg1, -, hc⟩ := readCells_good num r.cells 0 row r.head.gap (rows.flatMap DRow.text ++ t) hcs hne hh.2.1.2
      (by rw [hrl, hlen]; simp)
    have etext : g0 ++ ((r :: rows).flatMap DRow.text ++ t) =
        g0 ++ (r.head.text ++ (r.cells.flatMap Cell.text ++ (rows.flatMap DRow.text ++ t))) := by
      simp [DRow.text]
    rw [hlen] at hc
    obtain ⟨za, g2, ha0, ha1, hg2, hz'⟩ := readRows_step inum num n hn t rows fuel (some r.head.val)
      (tab.set r.head.val.toNat r.vals) g1
      (fun q hq => by rw [List.length_set]; exact hr q (by simp [hq]))
      (fun q hq => by
        rcases List.mem_or_eq_of_mem_set hq with h | h
        · exact ht q h
        · rw [h]; simp [DRow.vals, hlen])
      hg1.2 (Or.inr ⟨_, rfl, h0, by simpa using h1⟩)
    refine ⟨za, g2, ha0, by simpa using ha1, hg2, ?_⟩
    rw [etext, show (r :: rows).length + fuel = rows.length + fuel + 1 by simp; omega, readRows]
    simp only [Bool.false_eq_true, if_false]
    rw [extract_cell 0 inum r.head hh g0 _ hg]
    simp only [Option.some_or]
    rw [hra]
    simp only
    rw [hc]
    simp only [List.take_zero, List.nil_append]
    exact hz'

theorem set_same {α : Type} {tab : List α} {i : Nat} {row : α} (hr : tab[i]? = some row) : tab.set i row = tab := by
  apply List.ext_getElem?
  intro k
  rw [List.getElem?_set]
  split_ifs with hi hl
  · rw [← hi, hr]
  · rw [← hi]; simp at hl; rw [List.getElem?_eq_none hl]
  · rfl

/-- The row loop reads every row, then goes round once more at the end of the file without effect. -/
theorem readRows_good (inum : List Char → Option Int) (num : List Char → Option K) (n : Nat) (hn : 0 < n)
    (rows : List (DRow K)) (fuel : Nat) (z : Option Int) (tab : List (List K))
    (h1 : ∀ r ∈ rows, r.Good inum num tab.length n) (h2 : ∀ row ∈ tab, row.length = n) (h3 : rows ≠ []) :
    ∃ z', readRows inum num n (rows.length + 2 + fuel) z tab ⟨rows.flatMap DRow.text, false, false⟩ =
      .ok (z', putRows tab rows, ⟨[], true, true⟩) := by
  obtain ⟨za, g1, ha0, ha1, hg1, h⟩ := readRows_step inum num n hn [] rows (2 + fuel) z tab [] h1 h2 (by simp) (.inl h3)
  refine ⟨some za, ?_⟩
  rw [List.nil_append, List.append_nil, List.append_nil, ← Nat.add_assoc] at h
  rw [h, show 2 + fuel = fuel + 1 + 1 by omega, readRows]
  simp only [Bool.false_eq_true, if_false]
  rw [extract_end 0 inum g1 hg1]
  simp only [Option.none_or]
  obtain ⟨row, hr, hra⟩ := readAt_ok (xs := putRows tab rows) ha0 (by rw [putRows_length]; exact ha1)
  rw [hra]
  simp only
  rw [readCells_bad num n 0 row _ rfl]
  simp only
  rw [set_same hr, readRows]
  simp

/-- Once the stream has failed before its end the row loop never ends. -/
theorem readRows_stuck (inum : List Char → Option Int) (num : List Char → Option K) (n : Nat) (r : List Char) :
    ∀ (fuel : Nat) (za : Int) (tab : List (List K)), 0 ≤ za → za < tab.length →
    readRows inum num n fuel (some za) tab ⟨r, false, true⟩ = .more
  | 0, _, _, _, _ => rfl
  | fuel + 1, za, tab, h0, h1 => by
    obtain ⟨row, hr, hra⟩ := readAt_ok h0 h1
    rw [readRows]
    simp only [Bool.false_eq_true, if_false]
    rw [extract_bad 0 inum _ rfl]
    simp only [Option.none_or]
    rw [hra]
    simp only
    rw [readCells_bad num n 0 row _ rfl]
    simp only
    rw [set_same hr]
    exact readRows_stuck inum num n r fuel za tab h0 h1

/-- Enough fuel for the rows does not help when a word is no number. -/
theorem readRows_garbled (inum : List Char → Option Int) (num : List Char → Option K) (n : Nat) (hn : 0 < n)
    (rows : List (DRow K)) (fuel : Nat) (z : Option Int) (tab : List (List K)) (w t : List Char)
    (h1 : ∀ r ∈ rows, r.Good inum num tab.length n) (h2 : ∀ row ∈ tab, row.length = n) (h3 : rows ≠ [])
    (hw : Word w) (hn' : inum w = none) (ht : ∃ c t', t = c :: t' ∧ isWs c = true) :
    readRows inum num n (rows.length + fuel) z tab ⟨rows.flatMap DRow.text ++ (w ++ t), false, false⟩ = .more := by
  obtain ⟨za, g1, ha0, ha1, hg1, h⟩ :=
    readRows_step inum num n hn (w ++ t) rows fuel z tab [] h1 h2 (by simp) (.inl h3)
  rw [List.nil_append] at h
  rw [h]
  cases fuel with
  | zero => rfl
  | succ fuel =>
    obtain ⟨c, t', rfl, hc⟩ := ht
    obtain ⟨hw0, hw1⟩ := hw
    have hd1 := takeWhile_append_stop isWs g1 (w ++ c :: t') hg1 (by
      intro x hx
      cases hcw : w with
      | nil => exact absurd hcw hw0
      | cons y ys => rw [hcw] at hx; simp at hx; subst hx; exact hw1 y (by rw [hcw]; simp))
    have hd2 := takeWhile_append_stop (fun x => !isWs x) w (c :: t') (fun x hx => by simp [hw1 x hx]) (by
      intro x hx; simp at hx; subst hx; simp [hc])
    have hx : extract 0 inum ⟨g1 ++ (w ++ c :: t'), false, false⟩ = (some 0, ⟨c :: t', false, true⟩) := by
      unfold extract
      simp only [Bool.or_self, Bool.false_eq_true, if_false]
      rw [hd1.2]
      cases hcw : w with
      | nil => exact absurd hcw hw0
      | cons y ys =>
        rw [hcw] at hd2 hn'
        simp only [List.cons_append] at hd2 ⊢
        rw [hd2.1, hd2.2]
        simp only [hn', List.isEmpty_cons]
    have hpos : 0 < (putRows tab rows).length := by rw [putRows_length]; omega
    rw [readRows]
    simp only [Bool.false_eq_true, if_false]
    rw [hx]
    simp only [Option.some_or]
    obtain ⟨row, hr, hra⟩ := readAt_ok (xs := putRows tab rows) (z := 0) (le_refl _) (by omega)
    rw [hra]
    simp only
    rw [readCells_bad num n 0 row _ rfl]
    simp only
    rw [set_same hr]
    exact readRows_stuck inum num n _ fuel 0 _ (le_refl _) (by omega)

/-- Less fuel does not help either. -/
theorem readRows_mono (inum : List Char → Option Int) (num : List Char → Option K) (n : Nat) :
    ∀ (fuel m : Nat) (z : Option Int) (tab : List (List K)) (s : In),
    readRows inum num n (m + fuel) z tab s = .more → readRows inum num n fuel z tab s = .more
  | 0, _, _, _, _, _ => rfl
  | fuel + 1, m, z, tab, s, h => by
    rw [← Nat.add_assoc, readRows] at h
    rw [readRows]
    split_ifs at h ⊢ with he
    revert h
    cases hx : extract 0 inum s with
    | mk r s1 =>
      simp only
      cases r.or z with
      | none => simp
      | some za =>
        simp only
        cases readAt tab za with
        | ok row => simp only; exact readRows_mono inum num n fuel m _ _ _
        | exit => simp
        | ub => simp

/-- A nucleus without a row keeps its entry. -/
theorem putRows_other (z : Nat) : ∀ (rows : List (DRow K)) (tab : List (List K)),
    (∀ r ∈ rows, r.head.val.toNat ≠ z) → (putRows tab rows)[z]? = tab[z]?
  | [], _, _ => rfl
  | r :: rows, tab, h => by
    show (putRows (tab.set _ _) rows)[z]? = _
    rw [putRows_other z rows _ (fun q hq => h q (by simp [hq])), List.getElem?_set, if_neg (h r (by simp))]

/-- With distinct nuclei every row is stored. -/
theorem putRows_mem : ∀ (rows : List (DRow K)) (tab : List (List K)),
    (∀ r ∈ rows, 0 ≤ r.head.val ∧ r.head.val < tab.length) → rows.Pairwise (fun a b => a.head.val ≠ b.head.val) →
    ∀ r ∈ rows, (putRows tab rows)[r.head.val.toNat]? = some r.vals
  | [], _, _, _, r, hr => by simp at hr
  | q :: rows, tab, hb, hp, r, hr => by
    rw [List.pairwise_cons] at hp
    have hq := hb q (by simp)
    show (putRows (tab.set _ _) rows)[r.head.val.toNat]? = _
    rcases List.mem_cons.mp hr with rfl | hr
    · rw [putRows_other _ rows _ (fun x hx => by
        have := hp.1 x hx
        have hx0 := (hb x (by simp [hx])).1
        omega), List.getElem?_set_self (by omega)]
    · exact putRows_mem rows _ (fun x hx => by rw [List.length_set]; exact hb x (by simp [hx])) hp.2 r hr

/-- Comment lines are skipped one by one. -/
theorem getline_comment (l : List Char) (hl : Comment l) (ls : List (List Char)) (r str : List Char) :
    getline ⟨commentText (l :: ls) ++ r, false, false⟩ str = (l, ⟨commentText ls ++ r, false, false⟩) := by
  have : commentText (l :: ls) ++ r = l ++ '\n' :: (commentText ls ++ r) := by simp [commentText]
  rw [this]; exact getline_line l _ hl.2 str

theorem ldpLoop_comments (inum : List Char → Option Int) (num : List Char → Option K) (n : Nat) (r : List Char)
    (z : Option Int) (tab : List (List K)) : ∀ (ls : List (List Char)) (fuel : Nat) (str : List Char), (∀ l ∈ ls, Comment l) →
    ∃ str', ldpLoop inum num n (ls.length + fuel) z tab ⟨commentText ls ++ r, false, false⟩ str =
      ldpLoop inum num n fuel z tab ⟨r, false, false⟩ str'
  | [], fuel, str, _ => ⟨str, by simp [commentText]⟩
  | l :: ls, fuel, str, h => by
    obtain ⟨str', h'⟩ := ldpLoop_comments inum num n r z tab ls fuel l (fun q hq => h q (by simp [hq]))
    refine ⟨str', ?_⟩
    rw [show (l :: ls).length + fuel = ls.length + fuel + 1 by simp; omega, ldpLoop,
      getline_comment l (h l (by simp))]
    simp only [Bool.false_eq_true, if_false]
    rw [if_pos (h l (by simp)).1, h']

theorem count_comments (r : List Char) : ∀ (ls : List (List Char)) (fuel : Nat) (str : List Char), (∀ l ∈ ls, Comment l) →
    ∃ str', countComments (ls.length + fuel) ⟨commentText ls ++ r, false, false⟩ str =
      thenDo (countComments fuel ⟨r, false, false⟩ str') fun k => .ok (k + ls.length)
  | [], fuel, str, _ => ⟨str, by
      simp only [commentText, List.flatMap_nil, List.nil_append, List.length_nil, Nat.zero_add, Nat.add_zero]
      cases countComments fuel ⟨r, false, false⟩ str <;> rfl⟩
  | l :: ls, fuel, str, h => by
    obtain ⟨str', h'⟩ := count_comments r ls fuel l (fun q hq => h q (by simp [hq]))
    refine ⟨str', ?_⟩
    rw [show (l :: ls).length + fuel = ls.length + fuel + 1 by simp; omega, countComments,
      getline_comment l (h l (by simp))]
    simp only [Bool.false_eq_true, if_false]
    rw [if_pos (h l (by simp)).1, h']
    cases countComments fuel ⟨r, false, false⟩ str' with
    | ok k => simp [thenDo]; omega
    | exit => rfl
    | ub => rfl
    | more => rfl

theorem skip_comments (r : List Char) : ∀ (ls : List (List Char)) (str : List Char), (∀ l ∈ ls, Comment l) →
    (skipLines ls.length ⟨commentText ls ++ r, false, false⟩ str).2 = ⟨r, false, false⟩
  | [], str, _ => by simp [skipLines, commentText]
  | l :: ls, str, h => by
    rw [List.length_cons, skipLines, getline_comment l (h l (by simp))]
    exact skip_comments r ls l (fun q hq => h q (by simp [hq]))

/-- A line that is no comment ends the comments. -/
theorem count_stop (r : List Char) (h : r.head? ≠ some '#') (fuel : Nat) (str : List Char) :
    countComments (fuel + 1) ⟨r, false, false⟩ str = .ok 0 := by
  have hl : (getline ⟨r, false, false⟩ str).1.head? ≠ some '#' := by
    unfold getline
    simp only [Bool.or_self, Bool.false_eq_true, if_false]
    have : (r.takeWhile fun c => decide (c ≠ '\n')).head? ≠ some '#' := by
      cases r with
      | nil => simp
      | cons c r => rw [List.takeWhile_cons]; split_ifs <;> simp_all
    cases hd : r.dropWhile fun c => decide (c ≠ '\n') <;> simpa [hd] using this
  rw [countComments]
  generalize getline ⟨r, false, false⟩ str = q at hl
  obtain ⟨a, b⟩ := q
  simp only at hl ⊢
  rw [if_neg hl]
  simp

/-- The table of masses after the cells have been stored one after the other. -/
def putCells (tab : List K) (cs : List (MCell K)) : List K := cs.foldl (fun t c => t.set c.zaid.toNat c.mass) tab

theorem putCells_length (cs : List (MCell K)) : ∀ tab : List K, (putCells tab cs).length = tab.length := by
  induction cs with
  | nil => intro tab; rfl
  | cons r rows ih => intro tab; show (putCells (tab.set _ _) rows).length = _; rw [ih]; simp

theorem putCells_append (a b : List (MCell K)) (tab : List K) : putCells tab (a ++ b) = putCells (putCells tab a) b := by
  simp [putCells]

theorem putCells_other (z : Nat) : ∀ (rows : List (MCell K)) (tab : List K),
    (∀ r ∈ rows, r.zaid.toNat ≠ z) → (putCells tab rows)[z]? = tab[z]?
  | [], _, _ => rfl
  | r :: rows, tab, h => by
    show (putCells (tab.set _ _) rows)[z]? = _
    rw [putCells_other z rows _ (fun q hq => h q (by simp [hq])), List.getElem?_set, if_neg (h r (by simp))]

theorem putCells_mem : ∀ (rows : List (MCell K)) (tab : List K),
    (∀ r ∈ rows, 0 ≤ r.zaid ∧ r.zaid < tab.length) → rows.Pairwise (fun a b => a.zaid ≠ b.zaid) →
    ∀ r ∈ rows, (putCells tab rows)[r.zaid.toNat]? = some r.mass
  | [], _, _, _, r, hr => by simp at hr
  | q :: rows, tab, hb, hp, r, hr => by
    rw [List.pairwise_cons] at hp
    have hq := hb q (by simp)
    show (putCells (tab.set _ _) rows)[r.zaid.toNat]? = _
    rcases List.mem_cons.mp hr with rfl | hr
    · rw [putCells_other _ rows _ (fun x hx => by
        have := hp.1 x hx
        have hx0 := (hb x (by simp [hx])).1
        omega), List.getElem?_set_self (by omega)]
    · exact putCells_mem rows _ (fun x hx => by rw [List.length_set]; exact hb x (by simp [hx])) hp.2 r hr

theorem writeAt_ok {α : Type} {xs : List α} {z : Int} (v : α) (h0 : 0 ≤ z) (h1 : z < xs.length) :
    writeAt xs z v = .ok (xs.set z.toNat v) := by
  unfold writeAt; rw [if_pos ⟨h0, by omega⟩]

end CGMF.Data
