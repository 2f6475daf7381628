import Verif.Model.Stream
import Verif.Proofs.Data
import Verif.Props.CNumber

/-!
# Lemmas about numbers taken from a stream
-/

namespace CGMF.Stream

open CGMF CGMF.Text CGMF.Data CGMF.Spec CGMF.Props

/-- What may follow a number in a file: white space or the end. -/
def Apart (r : List Char) : Prop := ∀ c ∈ r.head?, isWs c = true

theorem ws_no_digit {c : Char} (h : isWs c = true) : isDigit c = false := by
  by_contra h'
  have := isWs_digit (c := c) (by simpa using h')
  rw [h] at this
  cases this

theorem ws_stops (r : List Char) (h : Apart r) (d p e : Bool) : takeBody d p e r = ([], r) := by
  cases r with
  | nil => rfl
  | cons c r =>
    have hc := h c (by simp)
    have h1 := ws_no_digit hc
    have h2 : c ≠ '.' := by rintro rfl; revert hc; decide
    have h3 : c ≠ 'e' := by rintro rfl; revert hc; decide
    have h4 : c ≠ 'E' := by rintro rfl; revert hc; decide
    unfold takeBody
    simp [h1, h2, h3, h4]

theorem body_cons (digit point expo : Bool) (c : Char) (cs : List Char) : takeBody digit point expo (c :: cs) =
    if isDigit c then front [c] (takeBody true point expo cs)
    else if c = '.' ∧ point = false ∧ expo = false then front [c] (takeBody digit true expo cs)
    else if (c = 'e' ∨ c = 'E') ∧ expo = false ∧ digit = true then
      match cs with
      | [] => ([c], [])
      | d :: ds => if d = '+' ∨ d = '-' then front [c, d] (takeBody digit point true ds) else front [c] (takeBody digit point true (d :: ds))
    else ([], c :: cs) := by
  rw [takeBody.eq_def]
  cases cs <;> rfl

theorem front_nil (x : List Char × List Char) : front [] x = x := rfl

theorem front_front (a b : List Char) (x : List Char × List Char) : front a (front b x) = front (a ++ b) x := by
  simp [front]

theorem body_digits (r : List Char) (p e : Bool) : ∀ (ds : List Char) (d : Bool), (∀ c ∈ ds, isDigit c = true) →
    takeBody d p e (ds ++ r) = front ds (takeBody (d || !ds.isEmpty) p e r)
  | [], d, _ => by simp [front]
  | c :: ds, d, h => by
    rw [List.cons_append, body_cons, if_pos (h c (by simp)), body_digits r p e ds true fun x hx => h x (by simp [hx]), front_front]
    simp

theorem body_exp {x : List Char} {e : Int} (h : pyExp x = .ok e) (p : Bool) (r : List Char) (hr : Apart r) :
    takeBody true p false (x ++ r) = (x, r) := by
  have key : ∀ (c : Char) (cs : List Char), c = 'e' ∨ c = 'E' → pyInt cs = .ok e →
      takeBody true p false (c :: cs ++ r) = (c :: cs, r) := by
    intro c cs hc h
    have hd : isDigit c = false := by rcases hc with rfl | rfl <;> decide
    have hp : c ≠ '.' := by rcases hc with rfl | rfl <;> decide
    have hall : ∀ {t : List Char} {n : Nat}, pyNat t = .ok n → takeBody true p true (t ++ r) = (t, r) := by
      intro t n ht
      rw [body_digits r p true t true (digits_all ht).2.1, ws_stops r hr]
      simp [front]
    rw [List.cons_append, body_cons]
    rw [if_neg (by simp [hd]), if_neg (by simp [hp]), if_pos ⟨hc, rfl, rfl⟩]
    unfold pyInt at h
    split at h
    · obtain ⟨n, h1, -⟩ := Res.bind_eq_ok.1 h
      simp only [List.cons_append]
      rw [if_pos (Or.inr trivial), hall h1]; rfl
    · obtain ⟨n, h1, -⟩ := Res.bind_eq_ok.1 h
      simp only [List.cons_append]
      rw [if_pos (Or.inl trivial), hall h1]; rfl
    · obtain ⟨n, h1, -⟩ := Res.bind_eq_ok.1 h
      obtain ⟨g1, g2, -⟩ := digits_all h1
      obtain ⟨a, t, rfl⟩ := List.exists_cons_of_ne_nil g1
      have ha := isDigit_ne (g2 a (by simp))
      simp only [List.cons_append]
      rw [if_neg (by simp [ha.1, ha.2.1]), ← List.cons_append, hall h1]; rfl
  unfold pyExp at h
  split at h
  · rw [List.nil_append, ws_stops r hr]
  · exact key _ _ (Or.inl rfl) h
  · exact key _ _ (Or.inr rfl) h
  · cases h

theorem takeWhile_digits' (s : List Char) : ∀ c ∈ s.takeWhile isDigit, isDigit c = true := by
  induction s with
  | nil => simp
  | cons a s ih =>
    intro c hc
    rw [List.takeWhile_cons] at hc
    split_ifs at hc with ha
    · rcases List.mem_cons.1 hc with rfl | hc
      · exact ha
      · exact ih c hc
    · simp at hc

theorem body_number {s : List Char} {x : ℚ} (h : pyUFloat s = .ok x) (r : List Char) (hr : Apart r) :
    takeBody false false false (s ++ r) = (s, r) := by
  unfold pyUFloat at h
  simp only at h
  split_ifs at h with h1
  obtain ⟨e, h2, -⟩ := Res.bind_eq_ok.1 h
  have hs : s = s.takeWhile isDigit ++ s.dropWhile isDigit := (List.takeWhile_append_dropWhile).symm
  generalize hip : s.takeWhile isDigit = ip at h1 h2 hs
  generalize hd : s.dropWhile isDigit = d at h1 h2 hs
  have hipd : ∀ c ∈ ip, isDigit c = true := hip ▸ takeWhile_digits' s
  subst hs
  rw [List.append_assoc, body_digits _ _ _ ip false hipd]
  unfold fracSplit at h1 h2
  split at h2
  · rename_i t
    simp only at h1 h2
    have ht : t = t.takeWhile isDigit ++ t.dropWhile isDigit := (List.takeWhile_append_dropWhile).symm
    generalize htp : t.takeWhile isDigit = tp at h1 h2 ht
    generalize htd : t.dropWhile isDigit = td at h2 ht
    have htpd : ∀ c ∈ tp, isDigit c = true := htp ▸ takeWhile_digits' t
    subst ht
    rw [List.cons_append, body_cons, if_neg (by decide), if_pos ⟨rfl, rfl, rfl⟩, List.append_assoc,
      body_digits _ _ _ tp _ htpd]
    have hb : ((false || !ip.isEmpty) || !tp.isEmpty) = true := by
      cases ip with
      | nil =>
        cases tp with
        | nil => exact absurd rfl h1
        | cons => rfl
      | cons => rfl
    rw [hb, body_exp h2 true r hr]
    simp [front]
  · rename_i hne
    have hb : (false || !ip.isEmpty) = true := by
      cases ip with
      | nil =>
        exfalso
        apply h1
        split
        · exact absurd rfl (hne _)
        · rfl
      | cons => rfl
    rw [hb, body_exp h2 false r hr]
    simp [front]

/-- The characters collected for a number that is followed by white space or the end are those of the number. -/
theorem takeNum_number {s : List Char} {x : ℚ} (h : pyFloat s = .ok x) (r : List Char) (hr : Apart r) :
    takeNum (s ++ r) = (s, r) ∧ ∃ c t, s = c :: t ∧ isWs c = false := by
  have key : ∀ {t : List Char} {y : ℚ}, pyUFloat t = .ok y → ∃ c u, t = c :: u ∧ isWs c = false ∧ ¬ (c = '+' ∨ c = '-') := by
    intro t y ht
    unfold pyUFloat at ht
    simp only at ht
    split_ifs at ht with h1
    cases t with
    | nil => exact absurd rfl h1
    | cons c t =>
      refine ⟨c, t, rfl, ?_⟩
      by_cases hc : isDigit c = true
      · have := isDigit_ne hc
        exact ⟨isWs_digit hc, by simp [this.1, this.2.1]⟩
      · have hc' : isDigit c = false := by simpa using hc
        rw [List.takeWhile_cons, List.dropWhile_cons, hc'] at h1
        simp only [Bool.false_eq_true, if_false, List.nil_append] at h1
        have : c = '.' := by
          unfold fracSplit at h1
          split at h1
          · rename_i heq; simp only [List.cons.injEq] at heq; exact heq.1
          · simp at h1
        subst this
        exact ⟨by decide, by decide⟩
  unfold pyFloat at h
  split at h
  · obtain ⟨y, h1, -⟩ := Res.bind_eq_ok.1 h
    refine ⟨?_, _, _, rfl, by decide⟩
    rw [List.cons_append, takeNum, if_pos (Or.inr rfl), body_number h1 r hr]; rfl
  · refine ⟨?_, _, _, rfl, by decide⟩
    rw [List.cons_append, takeNum, if_pos (Or.inl rfl), body_number h r hr]; rfl
  · obtain ⟨c, t, rfl, hw, hs⟩ := key h
    refine ⟨?_, c, t, rfl, hw⟩
    rw [List.cons_append, takeNum, if_neg hs, ← List.cons_append, body_number h r hr]

/-- The same for whole numbers; anything but a digit may follow. -/
theorem takeInt_number {s : List Char} {i : Int} (h : pyInt s = .ok i) (r : List Char)
    (hr : ∀ c ∈ r.head?, isDigit c = false) : takeInt (s ++ r) = (s, r) ∧ ∃ c t, s = c :: t ∧ isWs c = false := by
  have hw : ∀ {t : List Char} {n : Nat}, pyNat t = .ok n →
      (t ++ r).takeWhile isDigit = t ∧ (t ++ r).dropWhile isDigit = r := fun {t n} ht =>
    takeWhile_append_stop isDigit t r (digits_all ht).2.1 hr
  unfold pyInt at h
  split at h
  · obtain ⟨n, h1, -⟩ := Res.bind_eq_ok.1 h
    refine ⟨?_, _, _, rfl, by decide⟩
    rw [List.cons_append, takeInt, if_pos (Or.inr rfl), (hw h1).1, (hw h1).2]
  · obtain ⟨n, h1, -⟩ := Res.bind_eq_ok.1 h
    refine ⟨?_, _, _, rfl, by decide⟩
    rw [List.cons_append, takeInt, if_pos (Or.inl rfl), (hw h1).1, (hw h1).2]
  · obtain ⟨n, h1, -⟩ := Res.bind_eq_ok.1 h
    obtain ⟨g1, g2, -⟩ := digits_all h1
    obtain ⟨a, t, rfl⟩ := List.exists_cons_of_ne_nil g1
    have ha := isDigit_ne (g2 a (by simp))
    refine ⟨?_, a, t, rfl, isWs_digit (g2 a (by simp))⟩
    rw [List.cons_append, takeInt, if_neg (by simp [ha.1, ha.2.1]), ← List.cons_append, (hw h1).1, (hw h1).2]

theorem take_of {α : Type} {bad : List Char → α} {collect : List Char → List Char × List Char} {conv : List Char → Option α}
    {w r : List Char} {v : α} (h1 : collect (w ++ r) = (w, r)) (h2 : ∃ c t, w = c :: t ∧ isWs c = false)
    (h3 : conv w = some v) (g : List Char) (hg : ∀ x ∈ g, isWs x = true) :
    take bad collect conv ⟨g ++ (w ++ r), false, false⟩ = (some v, ⟨r, r.isEmpty, false⟩) := by
  obtain ⟨c, t, rfl, hc⟩ := h2
  have hd := takeWhile_append_stop isWs g (c :: t ++ r) hg (by intro x hx; simp at hx; subst hx; exact hc)
  unfold take
  simp only [Bool.or_self, Bool.false_eq_true, if_false]
  rw [hd.2]
  simp only [List.cons_append] at h1 ⊢
  rw [h1]
  simp only
  rw [h3]

theorem take_end {α : Type} (bad : List Char → α) (collect : List Char → List Char × List Char) (conv : List Char → Option α)
    (g : List Char) (hg : ∀ x ∈ g, isWs x = true) : take bad collect conv ⟨g, false, false⟩ = (none, ⟨[], true, true⟩) := by
  have h1 := takeWhile_append_stop isWs g [] hg (by simp)
  rw [List.append_nil] at h1
  unfold take
  simp only [Bool.or_self, Bool.false_eq_true, if_false]
  rw [h1.2]

theorem take_bad {α : Type} (bad : List Char → α) (collect : List Char → List Char × List Char) (conv : List Char → Option α)
    (s : In) (h : s.fail = true) : take bad collect conv s = (none, s) := by
  obtain ⟨r, e, f⟩ := s
  simp only at h
  subst h
  unfold take
  simp

/-- A whole number in the range of `int`, as it may stand in a file. -/
def IntText (w : List Char) (i : Int) : Prop := pyInt w = .ok i ∧ -2147483648 ≤ i ∧ i ≤ 2147483647

theorem convInt_some {w : List Char} {i : Int} : convInt w = some i ↔ IntText w i := by
  unfold convInt IntText
  cases h : pyInt w with
  | ok j =>
    simp only [Res.ok.injEq]
    split_ifs with hj
    · simp only [Option.some.injEq]
      exact ⟨fun e => ⟨e, by omega, by omega⟩, fun e => e.1⟩
    · simp only [false_iff]
      rintro ⟨rfl, h1, h2⟩
      exact hj ⟨h1, h2⟩
  | exit => simp
  | ub => simp

theorem convNum_some {w : List Char} {x : ℚ} : convNum w = some x ↔ pyFloat w = .ok x := by
  unfold convNum
  cases h : pyFloat w <;> simp

theorem gap_apart {g r : List Char} (hg : Gap g) : Apart (g ++ r) := by
  obtain ⟨h1, h2⟩ := hg
  obtain ⟨c, t, rfl⟩ := List.exists_cons_of_ne_nil h1
  intro x hx
  simp at hx
  subst hx
  exact h2 _ (by simp)

theorem gap_nonempty {g r : List Char} (hg : Gap g) : (g ++ r).isEmpty = false := by
  obtain ⟨h1, h2⟩ := hg
  obtain ⟨c, t, rfl⟩ := List.exists_cons_of_ne_nil h1
  rfl

theorem getInt_cell (c : Cell Int) (hc : c.Good convInt) (g0 r : List Char) (hg : ∀ x ∈ g0, isWs x = true) :
    getInt ⟨g0 ++ (c.text ++ r), false, false⟩ = (some c.val, ⟨c.gap ++ r, false, false⟩) := by
  obtain ⟨-, h2, h3⟩ := hc
  obtain ⟨h4, h5⟩ := takeInt_number (convInt_some.1 h3).1 (c.gap ++ r) fun x hx => ws_no_digit (gap_apart h2 x hx)
  have := take_of (bad := badInt) h4 h5 h3 g0 hg
  unfold getInt Cell.text
  rw [List.append_assoc, this, gap_nonempty h2]

theorem getNum_cell (c : Cell ℚ) (hc : c.Good convNum) (g0 r : List Char) (hg : ∀ x ∈ g0, isWs x = true) :
    getNum ⟨g0 ++ (c.text ++ r), false, false⟩ = (some c.val, ⟨c.gap ++ r, false, false⟩) := by
  obtain ⟨-, h2, h3⟩ := hc
  obtain ⟨h4, h5⟩ := takeNum_number (convNum_some.1 h3) (c.gap ++ r) (gap_apart h2)
  have := take_of (bad := fun _ => (0 : ℚ)) h4 h5 h3 g0 hg
  unfold getNum Cell.text
  rw [List.append_assoc, this, gap_nonempty h2]

/-! ## The readers -/

theorem cells_bad : ∀ (m i : Nat) (row : List ℚ) (s : In), s.fail = true → cells m i row s = (row, s)
  | 0, _, _, _, _ => rfl
  | m + 1, i, row, s, h => by
    rw [cells, show getNum s = (none, s) from take_bad _ _ _ s h]
    exact cells_bad m (i + 1) row s h

theorem cells_good : ∀ (cs : List (Cell ℚ)) (i : Nat) (row : List ℚ) (g0 r : List Char),
    (∀ c ∈ cs, c.Good convNum) → cs ≠ [] → (∀ x ∈ g0, isWs x = true) → i + cs.length ≤ row.length →
    ∃ g1, Gap g1 ∧ cs.getLast?.map Cell.gap = some g1 ∧ cells cs.length i row ⟨g0 ++ (cs.flatMap Cell.text ++ r), false, false⟩ =
      (row.take i ++ cs.map Cell.val ++ row.drop (i + cs.length), ⟨g1 ++ r, false, false⟩)
  | [], _, _, _, _, _, h, _, _ => absurd rfl h
  | c :: cs, i, row, g0, r, hc, _, hg, hl => by
    have hc0 := hc c (by simp)
    rw [List.flatMap_cons, List.append_assoc, List.length_cons, cells, getNum_cell c hc0 g0 _ hg]
    simp only
    simp only [List.length_cons] at hl
    have hset : (row.set i c.val).take (i + 1) = row.take i ++ [c.val] := by
      rw [List.take_set, List.take_succ_eq_append_getElem (by omega), List.set_append_right _ _ (by simp)]
      simp [Nat.min_eq_left (by omega : i ≤ row.length)]
    have hdrop : ∀ k, (row.set i c.val).drop (i + 1 + k) = row.drop (i + 1 + k) := by
      intro k
      rw [List.drop_set_of_lt (by omega)]
    cases cs with
    | nil =>
      refine ⟨c.gap, hc0.2.1, rfl, ?_⟩
      simp only [List.length_nil, cells, List.flatMap_nil, List.nil_append]
      refine Prod.ext ?_ rfl
      simp only [List.map_cons, List.map_nil]
      rw [← hset, Nat.zero_add, ← Nat.add_zero (i + 1), ← hdrop 0, Nat.add_zero, List.take_append_drop]
    | cons d ds =>
      obtain ⟨g1, hg1, hl1, h⟩ := cells_good (d :: ds) (i + 1) (row.set i c.val) c.gap r
        (fun x hx => hc x (by simp [hx])) (by simp) hc0.2.1.2 (by simp at hl ⊢; omega)
      refine ⟨g1, hg1, by rw [← hl1]; simp, ?_⟩
      rw [h, hset, hdrop]
      simp [Nat.add_assoc, Nat.add_comm]

theorem rows_step (n : Nat) (hn : 0 < n) (t : List Char) :
    ∀ (rs : List (DRow ℚ)) (fuel : Nat) (z : Option Int) (tab : List (List ℚ)) (g0 : List Char),
    (∀ r ∈ rs, r.Good convInt convNum tab.length n) → (∀ row ∈ tab, row.length = n) → (∀ x ∈ g0, isWs x = true) →
    (rs ≠ [] ∨ ∃ za, z = some za ∧ 0 ≤ za ∧ za < tab.length) →
    ∃ (za : Int) (g1 : List Char), 0 ≤ za ∧ za < tab.length ∧ (∀ x ∈ g1, isWs x = true) ∧
      rows n (rs.length + fuel) z tab ⟨g0 ++ (rs.flatMap DRow.text ++ t), false, false⟩ =
      rows n fuel (some za) (putRows tab rs) ⟨g1 ++ t, false, false⟩
  | [], fuel, z, tab, g0, _, _, hg, hz => by
    obtain ⟨za, rfl, h0, h1⟩ := hz.resolve_left (by simp)
    exact ⟨za, g0, h0, h1, hg, by simp [putRows]⟩
  | r :: rs, fuel, z, tab, g0, hr, ht, hg, _ => by
    obtain ⟨hh, hlen, hcs, h0, h1⟩ := hr r (by simp)
    obtain ⟨row, hrow, hra⟩ := readAt_ok h0 h1
    have hrl : row.length = n := ht row (List.mem_of_getElem? hrow)
    have hne : r.cells ≠ [] := by rintro h; rw [h] at hlen; simp at hlen; omega
    obtain ⟨g1, hg1, -, hc⟩ := cells_good r.cells 0 row r.head.gap (rs.flatMap DRow.text ++ t) hcs hne hh.2.1.2
      (by rw [hrl, hlen]; simp)
    have etext : g0 ++ ((r :: rs).flatMap DRow.text ++ t) =
        g0 ++ (r.head.text ++ (r.cells.flatMap Cell.text ++ (rs.flatMap DRow.text ++ t))) := by
      simp [DRow.text]
    rw [hlen] at hc
    obtain ⟨za, g2, ha0, ha1, hg2, hz'⟩ := rows_step n hn t rs fuel (some r.head.val)
      (tab.set r.head.val.toNat r.vals) g1
      (fun q hq => by rw [List.length_set]; exact hr q (by simp [hq]))
      (fun q hq => by
        rcases List.mem_or_eq_of_mem_set hq with h | h
        · exact ht q h
        · rw [h]; simp [DRow.vals, hlen])
      hg1.2 (Or.inr ⟨_, rfl, h0, by simpa using h1⟩)
    refine ⟨za, g2, ha0, by simpa using ha1, hg2, ?_⟩
    rw [etext, show (r :: rs).length + fuel = rs.length + fuel + 1 by simp; omega, rows]
    simp only [Bool.false_eq_true, if_false]
    rw [getInt_cell r.head hh g0 _ hg]
    simp only [Option.some_or]
    rw [hra]
    simp only
    rw [hc]
    simp only [List.take_zero, List.nil_append, Nat.zero_add]
    rw [List.drop_of_length_le (by omega), List.append_nil]
    exact hz'

theorem rows_good (n : Nat) (hn : 0 < n) (rs : List (DRow ℚ)) (fuel : Nat) (z : Option Int) (tab : List (List ℚ))
    (h1 : ∀ r ∈ rs, r.Good convInt convNum tab.length n) (h2 : ∀ row ∈ tab, row.length = n) (h3 : rs ≠ []) :
    ∃ z', rows n (rs.length + 2 + fuel) z tab ⟨rs.flatMap DRow.text, false, false⟩ =
      .ok (z', putRows tab rs, ⟨[], true, true⟩) := by
  obtain ⟨za, g1, ha0, ha1, hg1, h⟩ := rows_step n hn [] rs (2 + fuel) z tab [] h1 h2 (by simp) (.inl h3)
  refine ⟨some za, ?_⟩
  rw [List.nil_append, List.append_nil, List.append_nil, ← Nat.add_assoc] at h
  rw [h, show 2 + fuel = fuel + 1 + 1 by omega, rows]
  simp only [Bool.false_eq_true, if_false]
  rw [show getInt ⟨g1, false, false⟩ = _ from take_end badInt takeInt convInt g1 hg1]
  simp only [Option.none_or]
  obtain ⟨row, hr, hra⟩ := readAt_ok (xs := putRows tab rs) ha0 (by rw [putRows_length]; exact ha1)
  rw [hra]
  simp only
  rw [cells_bad n 0 row _ rfl]
  simp only
  rw [set_same hr, rows]
  simp

theorem ldp_comments (n : Nat) (r : List Char) (z : Option Int) (tab : List (List ℚ)) :
    ∀ (ls : List (List Char)) (fuel : Nat) (str : List Char), (∀ l ∈ ls, Comment l) →
    ∃ str', ldpLoop n (ls.length + fuel) z tab ⟨commentText ls ++ r, false, false⟩ str =
      ldpLoop n fuel z tab ⟨r, false, false⟩ str'
  | [], fuel, str, _ => ⟨str, by simp [commentText]⟩
  | l :: ls, fuel, str, h => by
    obtain ⟨str', h'⟩ := ldp_comments n r z tab ls fuel l (fun q hq => h q (by simp [hq]))
    refine ⟨str', ?_⟩
    rw [show (l :: ls).length + fuel = ls.length + fuel + 1 by simp; omega, ldpLoop,
      getline_comment l (h l (by simp))]
    simp only [Bool.false_eq_true, if_false]
    rw [if_pos (h l (by simp)).1, h']

end CGMF.Stream
