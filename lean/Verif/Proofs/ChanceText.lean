import Verif.Model.ChanceText
import Verif.Spec.ChanceText
import Verif.Spec.Prefission
import Verif.Proofs.Data
import Verif.Proofs.YieldFiles
import Verif.Proofs.Prefission
import Verif.Tactics

/-! Lemmas on the reader of the multi-chance fission probabilities. -/

namespace CGMF.Pre

open CGMF.Data CGMF.Text CGMF.YFile CGMF.Spec

set_option linter.unusedSectionVars false

variable {K : Type} [Field K] [LinearOrder K]

/-! ## Numbers -/

theorem extractN_good (num : List Char → Option K) : ∀ (cs : List (Cell K)) (g0 r : List Char), (∀ c ∈ cs, c.Good num) →
    (∀ x ∈ g0, isWs x = true) → ∃ g1, (∀ x ∈ g1, isWs x = true) ∧
      extractN num cs.length ⟨g0 ++ (cs.flatMap Cell.text ++ r), false, false⟩ =
        (cs.map fun c => some c.val, ⟨g1 ++ r, false, false⟩)
  | [], g0, r, _, hg => ⟨g0, hg, by simp [extractN]⟩
  | c :: cs, g0, r, hc, hg => by
    have hc0 := hc c (by simp)
    obtain ⟨g1, h1, h2⟩ := extractN_good num cs c.gap r (fun x hx => hc x (by simp [hx])) hc0.2.1.2
    refine ⟨g1, h1, ?_⟩
    rw [List.flatMap_cons, List.append_assoc, List.length_cons, extractN, extract_cell 0 num c hc0 g0 _ hg]
    simp only [h2, List.map_cons]

theorem extractN_line (num : List Char → Option K) (m : Nat) (l : NLine K) (hl : l.Good num m) (g0 r : List Char)
    (hg : ∀ x ∈ g0, isWs x = true) : ∃ g1, (∀ x ∈ g1, isWs x = true) ∧
      extractN num m ⟨g0 ++ (l.text ++ r), false, false⟩ = (l.vals.map some, ⟨g1 ++ r, false, false⟩) := by
  obtain ⟨h1, h2, h3, -⟩ := hl
  obtain ⟨g1, h4, h5⟩ := extractN_good num l.cells (g0 ++ l.lead) r h2 (by
    intro x hx
    rcases List.mem_append.1 hx with h | h
    · exact hg x h
    · exact h1 x h)
  refine ⟨g1, h4, ?_⟩
  have e : g0 ++ (l.text ++ r) = g0 ++ l.lead ++ (l.cells.flatMap Cell.text ++ r) := by simp [NLine.text]
  rw [e, ← h3, h5]
  simp [NLine.vals]

/-- What is stored of the rows. -/
def rowsOf (rows : List (NLine K)) : List (Option K × List (Option K)) :=
  rows.map fun r => (r.vals.head?, r.vals.tail.map some)

theorem extractRows_good (num : List Char → Option K) (m : Nat) : ∀ (rows : List (NLine K)) (g0 r : List Char),
    (∀ l ∈ rows, l.Good num (m + 1)) → (∀ x ∈ g0, isWs x = true) → ∃ g1, (∀ x ∈ g1, isWs x = true) ∧
      extractRows num m rows.length ⟨g0 ++ (rows.flatMap NLine.text ++ r), false, false⟩ =
        (rowsOf rows, ⟨g1 ++ r, false, false⟩)
  | [], g0, r, _, hg => ⟨g0, hg, by simp [extractRows, rowsOf]⟩
  | l :: rows, g0, r, hl, hg => by
    obtain ⟨g1, h1, h2⟩ := extractN_line num (m + 1) l (hl l (by simp)) g0 (rows.flatMap NLine.text ++ r) hg
    obtain ⟨g2, h3, h4⟩ := extractRows_good num m rows g1 r (fun x hx => hl x (by simp [hx])) h1
    refine ⟨g2, h3, ?_⟩
    have hne : l.vals ≠ [] := by
      have := (hl l (by simp)).2.2.1
      intro h
      have h' : l.vals.length = m + 1 := by simp [NLine.vals, this]
      rw [h] at h'; simp at h'
    obtain ⟨v, vs, hv⟩ := List.exists_cons_of_ne_nil hne
    rw [List.flatMap_cons, List.append_assoc, List.length_cons, extractRows]
    rw [extractN, hv] at h2
    simp only [List.map_cons, Prod.mk.injEq, List.cons.injEq] at h2
    obtain ⟨⟨e1, e2⟩, e3⟩ := h2
    simp only [e1, e2, e3, h4, rowsOf, List.map_cons, hv, List.head?_cons, List.tail_cons]

/-! ## Interpolation of numbers that have been read -/

/-- The block as a table. -/
def CBlock.chance (b : CBlock K) : Chance K := ⟨b.nn, b.barrier.vals, b.energies, b.probs⟩

theorem rows_energies (num : List Char → Option K) (m : Nat) : ∀ rows : List (NLine K), (∀ l ∈ rows, l.Good num (m + 1)) →
    (rowsOf rows).map Prod.fst = (rows.filterMap fun r => r.vals.head?).map some
  | [], _ => rfl
  | l :: rows, hl => by
    have ih := rows_energies num m rows (fun x hx => hl x (by simp [hx]))
    have h := (hl l (by simp)).2.2.1
    have hne : l.vals ≠ [] := by
      intro h0
      have h' : l.vals.length = m + 1 := by simp [NLine.vals, h]
      rw [h0] at h'; simp at h'
    obtain ⟨v, vs, hv⟩ := List.exists_cons_of_ne_nil hne
    unfold rowsOf at ih ⊢
    simp only [List.map_cons, hv, List.head?_cons, List.filterMap_cons] at ih ⊢
    rw [ih]

theorem readAt_map {α β : Type} (f : α → β) (l : List α) (i : Int) :
    readAt (l.map f) i = match readAt l i with | .ok a => .ok (f a) | .exit => .exit | .ub => .ub := by
  unfold readAt
  by_cases h : 0 ≤ i ∧ i.toNat < l.length
  · rw [dif_pos h, dif_pos (by simpa using h)]
    simp
  · rw [dif_neg h, dif_neg (by simpa using h)]

theorem known_some (l : List K) (i : Int) : known (l.map some) i = readAt l i := by
  unfold known
  rw [readAt_map]
  cases readAt l i <;> rfl

theorem knownPf_rows (rows : List (NLine K)) (i j : Int) :
    knownPf (rowsOf rows) i j = readAt2 (rows.map fun r => r.vals.tail) i j := by
  unfold knownPf readAt2 rowsOf
  rw [readAt_map, readAt_map]
  cases readAt rows i with
  | ok r => simp only [Res.bind]; exact known_some _ _
  | exit => rfl
  | ub => rfl

theorem rawOne_eq (num : List Char → Option K) (b : CBlock K) (hr : ∀ l ∈ b.rows, l.Good num (b.nn + 2)) (e : K) (i j : Int) :
    rawOne (rowsOf b.rows) e i j = interpOne (CBlock.chance b) e i j := by
  unfold rawOne interpOne
  rw [knownPf_rows, knownPf_rows, rows_energies num (b.nn + 1) b.rows hr, known_some, known_some]
  rfl

theorem rawFrom_eq (num : List Char → Option K) (b : CBlock K) (hr : ∀ l ∈ b.rows, l.Good num (b.nn + 2)) (e : K) (i : Int) :
    ∀ m j, rawFrom (rowsOf b.rows) e i j m = interpFrom (CBlock.chance b) e i j m
  | 0, _ => rfl
  | m + 1, j => by
    rw [rawFrom, interpFrom, rawOne_eq num b hr]
    have ih := rawFrom_eq num b hr e i m (j + 1)
    rw [ih]

theorem rawFind_eq (num : List Char → Option K) (b : CBlock K) (hr : ∀ l ∈ b.rows, l.Good num (b.nn + 2)) (e : K) :
    ∀ (es pre : List K), b.energies = pre ++ es →
      rawFind (rowsOf b.rows) e (b.nn + 1) pre.length es.length =
        match firstAtLeast e es with
        | some i => interpFrom (CBlock.chance b) e ((pre.length + i : Nat) : Int) 0 (b.nn + 1)
        | none => .ub
  | [], pre, _ => by simp [rawFind, firstAtLeast]
  | x :: es, pre, he => by
    have hk : known ((rowsOf b.rows).map Prod.fst) (pre.length : Int) = .ok x := by
      rw [rows_energies num (b.nn + 1) b.rows hr, known_some]
      show readAt b.energies _ = _
      rw [readAt_ok_iff, he]
      simp
    rw [List.length_cons, rawFind, hk]
    simp only [Res.bind]
    by_cases h : e ≤ x
    · rw [if_pos h, rawFrom_eq num b hr]
      simp [firstAtLeast, List.findIdx?_cons, h]
    · rw [if_neg h]
      have ih := rawFind_eq num b hr e es (pre ++ [x]) (by simp [he])
      rw [List.length_append, List.length_singleton] at ih
      rw [ih]
      unfold firstAtLeast
      rw [List.findIdx?_cons]
      simp only [h, decide_false, Bool.false_eq_true, if_false]
      cases List.findIdx? (fun x => decide (e ≤ x)) es with
      | none => rfl
      | some i =>
        simp only [Option.map_some]
        congr 1
        push_cast
        ring

theorem energies_length (num : List Char → Option K) (m : Nat) (rows : List (NLine K)) (hl : ∀ l ∈ rows, l.Good num (m + 1)) :
    (rows.filterMap fun r => r.vals.head?).length = rows.length := by
  have := congrArg List.length (rows_energies num m rows hl)
  simpa [rowsOf] using this.symm

/-- The tests and the interpolation agree with those on a table of numbers. -/
theorem rawInterp_eq (num : List Char → Option K) (b : CBlock K) (hr : ∀ l ∈ b.rows, l.Good num (b.nn + 2)) (e : K) :
    rawInterp (rowsOf b.rows) e (b.nn + 1) = interp (CBlock.chance b) e := by
  have hlen : b.energies.length = b.rows.length := energies_length num (b.nn + 1) b.rows hr
  have hk : ∀ i, known ((rowsOf b.rows).map Prod.fst) i = readAt b.energies i := fun i => by
    rw [rows_energies num (b.nn + 1) b.rows hr, known_some]; rfl
  have hl2 : (rowsOf b.rows).length = b.energies.length := by simp [rowsOf, hlen]
  unfold rawInterp interp
  rw [hk, hk, hl2]
  show _ = (readAt b.energies 0).bind fun e0 => (readAt b.energies ((b.energies.length : Int) - 1)).bind fun e1 =>
    if e < e0 ∨ e1 < e then .exit else match firstAtLeast e b.energies with
      | some i => interpFrom (CBlock.chance b) e i 0 (b.nn + 1)
      | none => .ub
  by_cases hne : b.energies = []
  · rw [hne]; rfl
  · have hpos : 0 < b.energies.length := List.length_pos_iff.2 hne
    have h0 : readAt b.energies 0 = .ok b.energies[0] := by rw [readAt_ok_iff]; simp
    have h1 : readAt b.energies ((b.energies.length : Int) - 1) = .ok (b.energies[b.energies.length - 1]) := by
      rw [readAt_ok_iff]
      refine ⟨by omega, ?_⟩
      rw [show ((b.energies.length : Int) - 1).toNat = b.energies.length - 1 by omega]
      exact List.getElem?_eq_getElem _
    rw [h0, h1]
    simp only [Res.bind]
    by_cases ha : e < b.energies[0]
    · rw [if_pos ha, if_pos (Or.inl ha)]
    · by_cases hb : b.energies[b.energies.length - 1] < e
      · rw [if_neg ha, if_pos hb, if_pos (Or.inr hb)]
      · rw [if_neg ha, if_neg hb, if_neg (by tauto)]
        have := rawFind_eq num b hr e b.energies [] rfl
        simpa using this

/-- A well-formed block is used as a table. -/
theorem block_good (inum : List Char → Option Int) (num : List Char → Option K) (e : K) (nemit : Int) (b : CBlock K)
    (hb : b.Good inum num) (r : List Char) :
    block num e nemit b.rows.length b.nn ⟨b.barrier.text ++ b.rows.flatMap NLine.text ++ r, false, false⟩ =
      match multi (CBlock.chance b) e nemit with
      | .ok m => .ok ⟨b.barrier.vals.map some, m⟩
      | .exit => .exit
      | .ub => .ub := by
  obtain ⟨-, h1, h2⟩ := hb
  obtain ⟨g1, w1, e1⟩ := extractN_line num (b.nn + 1) b.barrier h1 [] (b.rows.flatMap NLine.text ++ r) (by simp)
  obtain ⟨g2, w2, e2⟩ := extractRows_good num (b.nn + 1) b.rows g1 r h2 w1
  unfold block
  have hm : ((b.nn : Int) + 1).toNat = b.nn + 1 := by omega
  rw [if_neg (by omega), hm]
  simp only [List.nil_append] at e1
  simp only [List.append_assoc, e1, Int.toNat_natCast, e2]
  rw [rawInterp_eq num b h2]
  unfold multi
  show _ = match (interp (CBlock.chance b) e).bind fun ps => Res.ok (Multi.mk (limit ps b.nn nemit) (normTo (limit ps b.nn nemit + 1).toNat ps)
      (maxOf ((normTo (limit ps b.nn nemit + 1).toNat ps).take (limit ps b.nn nemit + 1).toNat))) with
    | .ok m => Res.ok (Left.mk (b.barrier.vals.map some) m)
    | .exit => .exit
    | .ub => .ub
  cases interp (CBlock.chance b) e with
  | ok ps => simp only [Res.bind]; rw [if_neg (by omega)]
  | exit => rfl
  | ub => rfl

/-! ## Lines -/

theorem skip_line (k : Nat) (c t r : List Char) (ht : '\n' ∉ t) (hl : t.length < 399) :
    skip (k + 1) c ⟨t ++ '\n' :: r, false, false⟩ = skip k t ⟨r, false, false⟩ := by
  rw [skip, getlineC_line _ _ _ ht hl]

theorem skip_nlines (num : List Char → Option K) (m : Nat) (r : List Char) : ∀ (ls : List (NLine K)) (c : List Char),
    (∀ l ∈ ls, l.Good num m) → skip (ls.length + 1) c ⟨ls.flatMap NLine.text ++ r, false, false⟩ =
      getlineC 399 ⟨r, false, false⟩
  | [], c, _ => by simp [skip]
  | l :: ls, c, hl => by
    obtain ⟨-, -, -, t, h1, h2, h3⟩ := hl l (by simp)
    rw [List.flatMap_cons, h1, List.length_cons]
    have e : t ++ ['\n'] ++ ls.flatMap NLine.text ++ r = t ++ '\n' :: (ls.flatMap NLine.text ++ r) := by simp
    rw [e, skip_line _ _ _ _ h2 h3]
    exact skip_nlines num m r ls t (fun x hx => hl x (by simp [hx]))

/-- A block that is skipped. -/
theorem skip_block (inum : List Char → Option Int) (num : List Char → Option K) (b : CBlock K) (hb : b.Good inum num)
    (c r : List Char) :
    skip ((b.rows.length : Int) + 2).toNat c ⟨b.barrier.text ++ b.rows.flatMap NLine.text ++ r, false, false⟩ =
      getlineC 399 ⟨r, false, false⟩ := by
  obtain ⟨-, h1, h2⟩ := hb
  obtain ⟨-, -, -, t, h3, h4, h5⟩ := h1
  rw [show ((b.rows.length : Int) + 2).toNat = b.rows.length + 1 + 1 by omega, h3]
  have e : t ++ ['\n'] ++ b.rows.flatMap NLine.text ++ r = t ++ '\n' :: (b.rows.flatMap NLine.text ++ r) := by simp
  rw [e, skip_line _ _ _ _ h4 h5, skip_nlines num _ r b.rows t h2]

theorem header_good (inum : List Char → Option Int) (l : List Char) (id ne nn : Int) (h : HeadLine inum l id ne nn) :
    header inum (pySplit l) = .ok (id, ne, some nn) ∧ ¬ (l.head? = some '#' ∨ (pySplit l).length < 3) := by
  obtain ⟨-, -, h1, w0, w1, w2, ws, h2, h3, h4, h5⟩ := h
  refine ⟨by rw [h2]; simp [header, h3, h4, h5], ?_⟩
  rw [h2]
  simp [h1]

/-- Parts that do not belong to the nucleus are passed over. -/
theorem loop_items (inum : List Char → Option Int) (num : List Char → Option K) (target : Int) (e : K) (nemit : Int)
    (r : List Char) : ∀ (its : List (CItem K)) (f : Nat), (∀ i ∈ its, i.Good inum num) →
    (∀ b ∈ cBlocks its, b.id ≠ target) →
    chanceLoop inum num target e nemit (f + its.length) (getlineC 399 ⟨cText its ++ r, false, false⟩).1
        (getlineC 399 ⟨cText its ++ r, false, false⟩).2 =
      chanceLoop inum num target e nemit f (getlineC 399 ⟨r, false, false⟩).1 (getlineC 399 ⟨r, false, false⟩).2
  | [], f, _, _ => rfl
  | i :: its, f, hg, ht => by
    have ih := loop_items inum num target e nemit r its f (fun x hx => hg x (by simp [hx])) (fun b hb => ht b (by
      unfold cBlocks at hb ⊢
      rw [List.filterMap_cons]
      cases i with
      | comment l => exact hb
      | other l => exact hb
      | block c => exact List.mem_cons_of_mem _ hb))
    have hi := hg i (by simp)
    rw [← ih, List.length_cons, ← Nat.add_assoc]
    cases i with
    | comment l =>
      have e1 : cText (CItem.comment l :: its) ++ r = l ++ '\n' :: (cText its ++ r) := by simp [cText, CItem.text]
      rw [e1, getlineC_line _ _ _ hi.1 hi.2.1, chanceLoop]
      simp [hi.2.2]
    | other l =>
      have e1 : cText (CItem.other l :: its) ++ r = l ++ '\n' :: (cText its ++ r) := by simp [cText, CItem.text]
      rw [e1, getlineC_line _ _ _ hi.1 hi.2.1, chanceLoop]
      simp [hi.2.2.2]
    | block b =>
      have hb : b.Good inum num := hi
      have e1 : cText (CItem.block b :: its) ++ r =
          b.head ++ '\n' :: (b.barrier.text ++ b.rows.flatMap NLine.text ++ (cText its ++ r)) := by
        simp [cText, CItem.text, CBlock.text]
      obtain ⟨h1, h2⟩ := header_good inum _ _ _ _ hb.1
      rw [e1, getlineC_line _ _ _ hb.1.1 hb.1.2.1, chanceLoop]
      simp only [Bool.false_eq_true, if_false, if_neg h2, h1]
      rw [if_neg (fun h => ht b (by simp [cBlocks]) h.symm), skip_block inum num b hb]

/-- Splitting a file at the block of the nucleus. -/
theorem blockOf_split (its : List (CItem K)) (id : Int) (b : CBlock K) (h : blockOf its id = some b) :
    ∃ pre post, its = pre ++ CItem.block b :: post ∧ b.id = id ∧ ∀ c ∈ cBlocks pre, c.id ≠ id := by
  induction its with
  | nil => simp [blockOf, cBlocks] at h
  | cons i its ih =>
    have other : ∀ j : CItem K, (∀ c, j ≠ CItem.block c) → blockOf (j :: its) id = blockOf its id := by
      intro j hj
      cases j with
      | comment l => rfl
      | other l => rfl
      | block c => exact absurd rfl (hj c)
    have skipIt : (∀ c, i = CItem.block c → c.id ≠ id) → blockOf its id = some b →
        ∃ pre post, i :: its = pre ++ CItem.block b :: post ∧ b.id = id ∧ ∀ c ∈ cBlocks pre, c.id ≠ id := by
      intro hi hb
      obtain ⟨pre, post, h1, h2, h3⟩ := ih hb
      refine ⟨i :: pre, post, by rw [h1]; rfl, h2, ?_⟩
      intro c hc
      cases i with
      | comment l => exact h3 c hc
      | other l => exact h3 c hc
      | block d =>
        have : cBlocks (CItem.block d :: pre) = d :: cBlocks pre := rfl
        rw [this] at hc
        rcases List.mem_cons.1 hc with rfl | hc
        · exact hi c rfl
        · exact h3 c hc
    cases i with
    | comment l => exact skipIt (by simp) h
    | other l => exact skipIt (by simp) h
    | block c =>
      have e : blockOf (CItem.block c :: its) id = if c.id == id then some c else blockOf its id := by
        unfold blockOf
        have : cBlocks (CItem.block c :: its) = c :: cBlocks its := rfl
        rw [this, List.find?_cons]
        cases c.id == id <;> rfl
      rw [e] at h
      by_cases hc : c.id = id
      · simp only [hc, beq_self_eq_true, if_true, Option.some.injEq] at h
        subst h
        exact ⟨[], its, rfl, hc, by simp [cBlocks]⟩
      · rw [if_neg (by simpa using hc)] at h
        exact skipIt (fun d hd => by cases hd; exact hc) h

end CGMF.Pre

/-! ## A file that ends too early -/

namespace CGMF.Pre

open CGMF.Data CGMF.Text CGMF.YFile CGMF.Spec

set_option linter.unusedSectionVars false

variable {K : Type} [Field K] [LinearOrder K]

theorem extractN_add (num : List Char → Option K) : ∀ (a b : Nat) (s : In),
    extractN num (a + b) s = ((extractN num a s).1 ++ (extractN num b (extractN num a s).2).1,
      (extractN num b (extractN num a s).2).2)
  | 0, b, s => by simp [extractN]
  | a + 1, b, s => by
    rw [show a + 1 + b = (a + b) + 1 by omega, extractN, extractN, extractN_add num a b]
    simp

theorem extractN_length (num : List Char → Option K) : ∀ (a : Nat) (s : In), (extractN num a s).1.length = a
  | 0, _ => rfl
  | a + 1, s => by rw [extractN]; simp [extractN_length num a]

theorem extractRows_flat (num : List Char → Option K) (m : Nat) : ∀ (n : Nat) (s : In),
    (extractRows num m n s).1.flatMap (fun r => r.1 :: r.2) = (extractN num (n * (m + 1)) s).1
  | 0, s => by simp [extractRows, extractN]
  | n + 1, s => by
    rw [show (n + 1) * (m + 1) = (m + n * (m + 1)) + 1 by ring, extractRows, extractN, extractN_add]
    simp only [List.flatMap_cons, List.cons_append]
    rw [extractRows_flat num m n]

theorem extractRows_length (num : List Char → Option K) (m : Nat) : ∀ (n : Nat) (s : In),
    (extractRows num m n s).1.length = n ∧ ∀ r ∈ (extractRows num m n s).1, r.2.length = m
  | 0, s => by simp [extractRows]
  | n + 1, s => by
    rw [extractRows]
    have ih := extractRows_length num m n (extractN num m (extract 0 num s).2).2
    refine ⟨by simp [ih.1], ?_⟩
    intro r hr
    rcases List.mem_cons.1 hr with rfl | hr
    · exact extractN_length num m _
    · exact ih.2 r hr

theorem flat_energy {α : Type} (m : Nat) : ∀ (rows : List (α × List α)) (i : Nat), (∀ r ∈ rows, r.2.length = m) →
    (rows.flatMap fun r => r.1 :: r.2)[i * (m + 1)]? = (rows.map Prod.fst)[i]?
  | [], i, _ => by simp
  | r :: rows, 0, _ => by simp
  | r :: rows, i + 1, h => by
    have hr := h r (by simp)
    rw [List.flatMap_cons, List.getElem?_append_right (by simp [hr])]
    have : (i + 1) * (m + 1) - (r.1 :: r.2).length = i * (m + 1) := by
      simp only [List.length_cons, hr]
      rw [Nat.succ_mul]; omega
    rw [this, flat_energy m rows i (fun x hx => h x (by simp [hx]))]
    simp

theorem extractN_bad (num : List Char → Option K) : ∀ (m : Nat) (s : In), s.fail = true →
    (extractN num m s).1 = List.replicate m none
  | 0, _, _ => rfl
  | m + 1, s, h => by
    rw [extractN, extract_bad 0 num s h]
    simp only [extractN_bad num m s h, List.replicate_succ]

/-- Fewer numbers than asked for. -/
theorem extractN_short (num : List Char → Option K) (m : Nat) (cs : List (Cell K)) (g0 : List Char) (hc : ∀ c ∈ cs, c.Good num)
    (hg : ∀ x ∈ g0, isWs x = true) :
    (extractN num (cs.length + m) ⟨g0 ++ cs.flatMap Cell.text, false, false⟩).1 =
      (cs.map fun c => some c.val) ++ List.replicate m none := by
  obtain ⟨g1, h1, h2⟩ := extractN_good num cs g0 [] hc hg
  rw [List.append_nil] at h2
  rw [extractN_add, h2]
  simp only [List.append_nil]
  congr 1
  cases m with
  | zero => rfl
  | succ m =>
    rw [extractN, extract_end 0 num g1 h1]
    simp only [extractN_bad num m ⟨[], true, true⟩ rfl, List.replicate_succ]

/-- A block whose last energy is missing. -/
theorem block_cut (num : List Char → Option K) (e : K) (nemit : Int) (nn ne : Nat) (cs : List (Cell K))
    (hc : ∀ c ∈ cs, c.Good num) (hl : cs.length ≤ (nn + 1) + ne * (nn + 2)) :
    block num e nemit ((ne : Int) + 1) nn ⟨cs.flatMap Cell.text, false, false⟩ =
      match cs[nn + 1]? with
      | some c => if e < c.val then .exit else .ub
      | none => .ub := by
  unfold block
  rw [if_neg (by omega), show ((nn : Int) + 1).toNat = nn + 1 by omega, show ((ne : Int) + 1).toNat = ne + 1 by omega]
  simp only []
  set s : In := ⟨cs.flatMap Cell.text, false, false⟩ with hs
  set b := extractN num (nn + 1) s with hb
  set rows := extractRows num (nn + 1) (ne + 1) b.2 with hrows
  have hlen := extractRows_length num (nn + 1) (ne + 1) b.2
  rw [← hrows] at hlen
  have hflat : (b.1 ++ (rows.1.flatMap fun r => r.1 :: r.2)) =
      (cs.map fun c => some c.val) ++ List.replicate ((nn + 1) + (ne + 1) * (nn + 2) - cs.length) none := by
    rw [hrows, extractRows_flat, hb]
    have := extractN_add num (nn + 1) ((ne + 1) * (nn + 1 + 1)) s
    have h2 := congrArg Prod.fst this
    simp only at h2
    rw [← h2]
    have h3 := extractN_short num ((nn + 1) + (ne + 1) * (nn + 2) - cs.length) cs [] hc (by simp)
    rw [List.nil_append] at h3
    rw [← h3, hs]
    congr 2
    have : (ne + 1) * (nn + 2) = ne * (nn + 2) + (nn + 2) := by ring
    show nn + 1 + (ne + 1) * (nn + 2) = _
    omega
  have hen : ∀ i ≤ ne, (rows.1.map Prod.fst)[i]? =
      ((cs.map fun c => some c.val) ++ List.replicate ((nn + 1) + (ne + 1) * (nn + 2) - cs.length) none)[nn + 1 + i * (nn + 2)]? := by
    intro i _
    rw [← hflat, List.getElem?_append_right (by rw [hb, extractN_length]; omega), ← flat_energy (nn + 1) rows.1 i hlen.2]
    congr 1
    rw [hb, extractN_length]
    show i * (nn + 2) = _
    omega
  have hlast : known (rows.1.map Prod.fst) ((rows.1.length : Int) - 1) = .ub := by
    have h := hen ne le_rfl
    have h1 : (rows.1.map Prod.fst)[ne]? = some none := by
      rw [h, List.getElem?_append_right (by simpa using hl), List.getElem?_replicate_of_lt]
      simp only [List.length_map]
      have : (ne + 1) * (nn + 2) = ne * (nn + 2) + (nn + 2) := by ring
      omega
    unfold known
    have : readAt (rows.1.map Prod.fst) ((rows.1.length : Int) - 1) = .ok none := by
      rw [readAt_ok_iff, hlen.1]
      exact ⟨by omega, by rw [show ((ne + 1 : Nat) : Int) - 1 = (ne : Int) by omega]; exact h1⟩
    rw [this]; rfl
  have hfirst : known (rows.1.map Prod.fst) 0 = match cs[nn + 1]? with | some c => .ok c.val | none => .ub := by
    have h := hen 0 (Nat.zero_le _)
    rw [Nat.zero_mul, Nat.add_zero] at h
    unfold known
    cases hx : cs[nn + 1]? with
    | some c =>
      have : (rows.1.map Prod.fst)[0]? = some (some c.val) := by
        rw [h, List.getElem?_append_left (by simpa using (List.getElem?_eq_some_iff.1 hx).1)]
        simp [hx]
      rw [readAt_ok_iff.2 ⟨le_rfl, this⟩]; rfl
    | none =>
      have hle : cs.length ≤ nn + 1 := List.getElem?_eq_none_iff.1 hx
      have : (rows.1.map Prod.fst)[0]? = some none := by
        rw [h, List.getElem?_append_right (by simpa using hle), List.getElem?_replicate_of_lt]
        simp only [List.length_map]
        have : (ne + 1) * (nn + 2) = ne * (nn + 2) + (nn + 2) := by ring
        omega
      rw [readAt_ok_iff.2 ⟨le_rfl, this⟩]; rfl
  unfold rawInterp
  rw [hfirst, hlast]
  cases cs[nn + 1]? with
  | some c =>
    simp only [Res.bind]
    by_cases h : e < c.val
    · rw [if_pos h, if_pos h]
    · rw [if_neg h, if_neg h]
  | none => rfl

theorem loop_stuck' (inum : List Char → Option Int) (num : List Char → Option K) (target : Int) (e : K) (nemit : Int)
    (r : List Char) : ∀ f, chanceLoop inum num target e nemit f [] ⟨r, false, true⟩ = .more
  | 0 => rfl
  | f + 1 => by
    rw [chanceLoop]
    have : (pySplit []).length < 3 := by decide
    simp only [Bool.false_eq_true, if_false, this, or_true, if_true, getlineC_bad]
    exact loop_stuck' inum num target e nemit r f

theorem loop_long' (inum : List Char → Option Int) (num : List Char → Option K) (target : Int) (e : K) (nemit : Int)
    (l r : List Char) (hl : '\n' ∉ l) (hlen : 399 ≤ l.length) (hc : l.head? = some '#') (f : Nat) :
    chanceLoop inum num target e nemit f (getlineC 399 ⟨l ++ '\n' :: r, false, false⟩).1
      (getlineC 399 ⟨l ++ '\n' :: r, false, false⟩).2 = .more := by
  have hg : getlineC 399 ⟨l ++ '\n' :: r, false, false⟩ =
      (l.take 398, ⟨(l ++ '\n' :: r).drop 398, false, true⟩) := by
    unfold getlineC
    simp only [Bool.or_self, Bool.false_eq_true, if_false]
    rw [(split_newline l r hl).1, if_pos hlen]
  rw [hg]
  cases f with
  | zero => rfl
  | succ f =>
    rw [chanceLoop]
    have : (l.take 398).head? = some '#' := by
      rw [List.head?_take, if_neg (by omega)]; exact hc
    simp only [Bool.false_eq_true, if_false, this, true_or, if_true, getlineC_bad]
    exact loop_stuck' inum num target e nemit _ f

/-- More passes do not change a result. -/
theorem chanceLoop_mono (inum : List Char → Option Int) (num : List Char → Option K) (target : Int) (e : K) (nemit : Int) :
    ∀ (f : Nat) (c : List Char) (s : In), chanceLoop inum num target e nemit (f + 1) c s = .more →
      chanceLoop inum num target e nemit f c s = .more
  | 0, _, _, _ => rfl
  | f + 1, c, s, h => by
    rw [chanceLoop] at h ⊢
    by_cases he : s.eof = true
    · rw [if_pos he] at h; exact absurd h (by simp)
    · rw [if_neg he] at h ⊢
      by_cases hc : c.head? = some '#' ∨ (pySplit c).length < 3
      · rw [if_pos hc] at h ⊢
        exact chanceLoop_mono inum num target e nemit f _ _ h
      · rw [if_neg hc] at h ⊢
        cases hh : header inum (pySplit c) with
        | exit => rw [hh] at h; exact absurd h (by simp)
        | ub => rw [hh] at h; exact absurd h (by simp)
        | ok p =>
          obtain ⟨id, ne, nn⟩ := p
          rw [hh] at h
          simp only at h ⊢
          by_cases ht : target = id
          · rw [if_pos ht] at h ⊢
            cases nn with
            | none => exact absurd h (by simp)
            | some nn =>
              simp only at h ⊢
              cases hb : block num e nemit ne nn s with
              | ok l => rw [hb] at h; exact absurd h (by simp)
              | exit => rw [hb] at h; exact absurd h (by simp)
              | ub => rw [hb] at h; exact absurd h (by simp)
          · rw [if_neg ht] at h ⊢
            exact chanceLoop_mono inum num target e nemit f _ _ h

theorem chanceLoop_mono' (inum : List Char → Option Int) (num : List Char → Option K) (target : Int) (e : K) (nemit : Int)
    (f m : Nat) (c : List Char) (s : In) (h : chanceLoop inum num target e nemit (f + m) c s = .more) :
    chanceLoop inum num target e nemit f c s = .more := by
  induction m with
  | zero => exact h
  | succ m ih => exact ih (chanceLoop_mono inum num target e nemit _ _ _ h)

end CGMF.Pre
