import Verif.Spec.RtaTable
import Verif.Proofs.LevelText

/-! Lemmas on the parameter file and the ratio file. -/

namespace CGMF.LevelText

open CGMF.Data CGMF.Spec

variable {K : Type} [Field K] [LinearOrder K]

theorem lines_withNewlines : ∀ ls : List (List Char), (∀ l ∈ ls, '\n' ∉ l) → lines (withNewlines ls) = ls
  | [], _ => rfl
  | l :: ls, h => by
    have e : withNewlines (l :: ls) = l ++ '\n' :: withNewlines ls := by simp [withNewlines]
    unfold lines
    rw [e, linesAux_line l _ [] (h l (by simp))]
    have := lines_withNewlines ls (fun d hd => h d (by simp [hd]))
    unfold lines at this
    rw [this]
    rfl

/-! ## Level density parameters -/

theorem kckLine_good {cv : Conv K} {l : List Char} {z : Int} {v : List K} (h : KckShows cv l z v) (tab : List (List K)) :
    kckLine cv l tab = writeAt tab z v := by
  obtain ⟨-, -, hl, hz, hv⟩ := h
  unfold kckLine
  rw [substr_ok (by omega), bind_ok', substr_ok (by omega), bind_ok', substr_ok (by omega), bind_ok', substr_ok (by omega),
    bind_ok', substr_ok (by omega), bind_ok', substr_ok (by omega), bind_ok', hz]
  rcases hv with ⟨hm, rfl⟩ | ⟨hm, rfl⟩
  · rw [if_pos hm, if_pos hm, substr_ok (by omega), bind_ok', substr_ok (by omega), bind_ok']
  · rw [if_neg (not_lt.2 hm), if_neg (not_lt.2 hm), substr_ok (by omega), bind_ok', substr_ok (by omega), bind_ok']

omit [Field K] [LinearOrder K] in
theorem lastOf_cons (rows : List (Int × List K)) (r : Int × List K) (z : Int) :
    lastOf (r :: rows) z = match lastOf rows z with
      | some v => some v
      | none => if r.1 = z then some r.2 else none := by
  unfold lastOf
  by_cases h : r.1 = z
  · rw [List.filter_cons_of_pos (by simpa using h), List.getLast?_cons]
    cases hl : (rows.filter fun r => r.1 == z).getLast? with
    | none => simp [h]
    | some x => simp
  · rw [List.filter_cons_of_neg (by simpa using h)]
    cases hl : (rows.filter fun r => r.1 == z).getLast? with
    | none => simp [h]
    | some x => simp

theorem kckLines_good {cv : Conv K} {size : Nat} : ∀ (f : List (KckItem K)) (tab : List (List K)), tab.length = size →
    (∀ x ∈ f, x.Good cv size) → ∃ tab', kckLines cv (f.map KckItem.text) tab = .ok tab' ∧ tab'.length = size ∧
      ∀ z : Nat, z < size → tab'[z]? = match lastOf (f.flatMap KckItem.rows) z with
        | some v => some v
        | none => tab[z]?
  | [], tab, hs, _ => ⟨tab, rfl, hs, fun z _ => rfl⟩
  | .comment l :: f, tab, hs, h => by
    obtain ⟨tab', h1, h2, h3⟩ := kckLines_good f tab hs (fun x hx => h x (by simp [hx]))
    have hc := (h _ List.mem_cons_self).2
    refine ⟨tab', ?_, h2, h3⟩
    rw [List.map_cons, kckLines]
    simp only [KckItem.text, hc, if_true]
    exact h1
  | .row l z v :: f, tab, hs, h => by
    obtain ⟨hk, h0, h1⟩ := h _ List.mem_cons_self
    obtain ⟨tab', h2, h3, h4⟩ := kckLines_good f (tab.set z.toNat v) (by simpa using hs) (fun x hx => h x (by simp [hx]))
    refine ⟨tab', ?_, h3, ?_⟩
    · rw [List.map_cons, kckLines]
      simp only [KckItem.text, hk.2.1, if_false]
      rw [kckLine_good hk, writeAt_ok v h0 (by omega), bind_ok', h2]
    · intro y hy
      rw [h4 y hy, List.flatMap_cons]
      simp only [KckItem.rows, List.singleton_append]
      rw [lastOf_cons]
      cases lastOf (f.flatMap KckItem.rows) (y : Int) with
      | some w => rfl
      | none =>
        simp only
        by_cases hz : z = (y : Int)
        · subst hz
          simp [hs, hy]
        · rw [if_neg hz]
          simp only
          rw [List.getElem?_set_ne (by omega)]

/-! ## Ratios -/

theorem rtaCells_good {cv : Conv K} : ∀ (words : List (List Char)) (lo : Nat) (tail : List Char) (r : List K),
    (∀ w ∈ words, ' ' ∉ w) → (tail = [] ∨ tail.head? = some ' ') → lo + words.length ≤ r.length → words ≠ [] →
    ∃ r', rtaCells cv words.length lo ((List.intersperse [' '] words).flatten ++ tail) r = .ok r' ∧ r'.length = r.length ∧
      ∀ k : Nat, r'[k]? = if lo ≤ k ∧ k < lo + words.length then (words.map cv.atof)[k - lo]? else r[k]?
  | [], _, _, _, _, _, _, h => absurd rfl h
  | [w], lo, tail, r, hw, ht, hlen, _ => by
    have hsp := takeWhile_append_stop (fun c => decide (c ≠ ' ')) w tail
      (fun c hc => by simp; rintro rfl; exact hw w (by simp) hc)
      (fun c hc => by
        rcases ht with ht | ht
        · rw [ht] at hc; cases hc
        · rw [ht] at hc; cases hc; rfl)
    have hi : (List.intersperse [' '] [w]).flatten = w := by simp [List.intersperse]
    refine ⟨r.set lo (cv.atof w), ?_, by simp, ?_⟩
    · rw [List.length_singleton, rtaCells, hi, hsp.1, hsp.2, writeAt_ok _ (by omega) (by simp at hlen; omega), bind_ok',
        Int.toNat_natCast]
      rcases ht with ht | ht
      · rw [ht]
      · cases tail with
        | nil => cases ht
        | cons c cs => rfl
    · intro k
      simp only [List.length_singleton, List.map_cons, List.map_nil]
      by_cases hk : k = lo
      · subst hk
        rw [if_pos (by omega)]
        have hlt : k < r.length := by simp at hlen; omega
        simp [hlt]
      · rw [if_neg (by omega), List.getElem?_set_ne (by omega)]
  | w :: w2 :: ws, lo, tail, r, hw, ht, hlen, _ => by
    have hi : (List.intersperse [' '] (w :: w2 :: ws)).flatten ++ tail =
        w ++ ' ' :: ((List.intersperse [' '] (w2 :: ws)).flatten ++ tail) := by
      simp [List.intersperse]
    have hsp := takeWhile_append_stop (fun c => decide (c ≠ ' ')) w
      (' ' :: ((List.intersperse [' '] (w2 :: ws)).flatten ++ tail))
      (fun c hc => by simp; rintro rfl; exact hw w (by simp) hc) (by simp)
    obtain ⟨r', h1, h2, h3⟩ := rtaCells_good (w2 :: ws) (lo + 1) tail (r.set lo (cv.atof w)) (fun x hx => hw x (by simp [hx]))
      ht (by simp at hlen ⊢; omega) (by simp)
    refine ⟨r', ?_, by simpa using h2, ?_⟩
    · rw [List.length_cons, rtaCells, hi, hsp.1, hsp.2, writeAt_ok _ (by omega) (by simp at hlen; omega), bind_ok',
        Int.toNat_natCast]
      simp only
      push_cast at h1
      exact h1
    · intro k
      rw [h3 k]
      simp only [List.length_cons]
      by_cases hk : k = lo
      · subst hk
        rw [if_neg (by omega), if_pos (by omega)]
        have hlt : k < r.length := by simp at hlen; omega
        simp [hlt]
      · by_cases hk2 : lo + 1 ≤ k ∧ k < lo + 1 + (ws.length + 1)
        · rw [if_pos hk2, if_pos (by omega), List.map_cons (f := cv.atof) (a := w)]
          have : k - lo = (k - (lo + 1)) + 1 := by omega
          rw [this, List.getElem?_cons_succ]
        · rw [if_neg hk2, if_neg (by omega), List.getElem?_set_ne (by omega)]

/-- The table entry of a row. -/
def entry (numA : Nat) (r : RtaRow K) : Rta K :=
  ⟨some |r.z|, (List.range numA).map fun k => if r.lo ≤ k then r.vals.getD (k - r.lo) 1 else 1⟩

theorem rtaLine_good {cv : Conv K} {numA : Nat} {r : RtaRow K} (h : r.Good cv numA) (done rest : List (Rta K)) :
    rtaLine cv r.line done.length (done ++ ⟨none, List.replicate numA 1⟩ :: rest) =
      .ok (done ++ entry numA r :: rest, done.length + 1) := by
  obtain ⟨hnl, -, hr, hl, hz, hlo, hhi, hne, hnum, hv, hw, tail, ht, htail⟩ := h
  have hlen : r.words.length = r.vals.length := by rw [← hv]; simp
  have hwne : r.words ≠ [] := by
    intro h; apply hne; rw [← hv, h]; rfl
  have hpos : 0 < r.vals.length := List.length_pos_iff.2 hne
  obtain ⟨r', h1, h2, h3⟩ := rtaCells_good (cv := cv) r.words r.lo tail (List.replicate numA (1 : K)) hw htail
    (by simp; omega) hwne
  have hread : readAt (done ++ (⟨none, List.replicate numA 1⟩ : Rta K) :: rest) (done.length : Int) =
      .ok ⟨none, List.replicate numA 1⟩ := by
    unfold readAt
    rw [dif_pos ⟨by omega, by simp⟩]
    simp
  have hentry : r' = (entry numA r).ratios := by
    apply List.ext_getElem?
    intro k
    rw [h3 k]
    rw [show (entry numA r).ratios[k]? = ((List.range numA)[k]?).map (fun k => if r.lo ≤ k then r.vals.getD (k - r.lo) 1 else 1) by
      simp [entry]]
    by_cases hk : k < numA
    · rw [List.getElem?_range hk]
      simp only [Option.map_some]
      by_cases hin : r.lo ≤ k ∧ k < r.lo + r.words.length
      · rw [if_pos hin, if_pos hin.1, hv, List.getElem?_eq_getElem (by omega)]
        simp [List.getD, List.getElem?_eq_getElem (show k - r.lo < r.vals.length by omega)]
      · rw [if_neg hin]
        by_cases hlo' : r.lo ≤ k
        · rw [if_pos hlo']
          simp [List.getD, hk, List.getElem?_eq_none (show r.vals.length ≤ k - r.lo by omega)]
        · rw [if_neg hlo']; simp [hk]
    · rw [if_neg (by omega)]
      simp [hk]
  cases hline : r.line with
  | nil => rw [hline] at hl; simp at hl
  | cons x xs =>
    rw [hline] at hr hl hz hlo hhi ht
    have hx : ¬(x = '\r' ∨ x = '\n') := by
      rintro (rfl | rfl)
      · exact hr rfl
      · rw [hline] at hnl; simp at hnl
    rw [rtaLine, if_neg hx, if_neg (by omega), hread]
    simp only
    have e0 : (x :: xs).take 7 = cols (x :: xs) 0 7 := rfl
    have e1 : ((x :: xs).drop 7).take 12 = cols (x :: xs) 7 12 := rfl
    have e2 : ((x :: xs).drop 12).take 17 = cols (x :: xs) 12 17 := rfl
    rw [e0, e1, e2, hz, hlo, hhi, if_neg (by omega), ht]
    have en : ((r.lo : Int) + (r.vals.length : Int) - 1 - (r.lo : Int) + 1).toNat = r.words.length := by omega
    rw [en, h1, bind_ok', hentry]
    simp [entry]

theorem rtaLines_good {cv : Conv K} {numA : Nat} : ∀ (f : List (RtaItem K)) (done : List (Rta K)) (m : Nat),
    (∀ x ∈ f, x.Good cv numA) →
    rtaLines cv (f.map RtaItem.text) done.length (done ++ List.replicate m ⟨none, List.replicate numA 1⟩) =
      if (f.flatMap RtaItem.rows).length ≤ m then
        .ok (done ++ (f.flatMap RtaItem.rows).map (entry numA) ++
          List.replicate (m - (f.flatMap RtaItem.rows).length) ⟨none, List.replicate numA 1⟩)
      else .ub
  | [], done, m, _ => by simp [rtaLines]
  | .comment l :: f, done, m, h => by
    have hc := (h _ List.mem_cons_self).2
    have ih := rtaLines_good f done m (fun x hx => h x (by simp [hx]))
    rw [List.map_cons, rtaLines]
    simp only [RtaItem.text, hc, if_true]
    exact ih
  | .blank l :: f, done, m, h => by
    have hc : l = [] ∨ l = ['\r'] := h _ List.mem_cons_self
    have ih := rtaLines_good f done m (fun x hx => h x (by simp [hx]))
    rw [List.map_cons, rtaLines]
    rcases hc with rfl | rfl
    · simp only [RtaItem.text, List.head?_nil, reduceCtorEq, if_false]
      rw [rtaLine, bind_ok']
      exact ih
    · have : ¬ (['\r'] : List Char).head? = some '#' := by decide
      simp only [RtaItem.text, this, if_false]
      rw [rtaLine, if_pos (Or.inl rfl), bind_ok']
      exact ih
  | .row r :: f, done, m, h => by
    have hr : r.Good cv numA := h _ List.mem_cons_self
    have hrows : (RtaItem.row r :: f).flatMap RtaItem.rows = r :: f.flatMap RtaItem.rows := rfl
    rw [hrows, List.map_cons, rtaLines]
    simp only [RtaItem.text, hr.2.1, if_false]
    cases m with
    | zero =>
      have : rtaLine cv r.line done.length (done ++ List.replicate 0 ⟨none, List.replicate numA 1⟩) = .ub := by
        obtain ⟨hn, -, hcr, hl, -⟩ := hr
        cases hline : r.line with
        | nil => rw [hline] at hl; simp at hl
        | cons x xs =>
          rw [hline] at hcr hl hn
          have hx : ¬(x = '\r' ∨ x = '\n') := by
            rintro (rfl | rfl)
            · exact hcr rfl
            · simp at hn
          rw [rtaLine, if_neg hx, if_neg (by omega)]
          have : readAt (done ++ List.replicate 0 (⟨none, List.replicate numA 1⟩ : Rta K)) (done.length : Int) = .ub := by
            unfold readAt; rw [dif_neg (by simp)]
          rw [this]
      rw [this, if_neg (by simp)]
      rfl
    | succ m =>
      rw [List.replicate_succ, rtaLine_good hr done _, bind_ok']
      simp only
      have ih := rtaLines_good f (done ++ [entry numA r]) m (fun x hx => h x (by simp [hx]))
      simp only [List.append_assoc, List.singleton_append, List.length_append, List.length_singleton] at ih
      rw [ih]
      simp only [List.length_cons, Nat.add_le_add_iff_right, List.map_cons, List.append_assoc, List.cons_append,
        Nat.reduceSubDiff]

theorem ratio_entries {numA : Nat} (target : Int) (ah : Nat) (ha : ah < numA) (k : Nat) : ∀ rows : List (RtaRow K),
    ratio (rows.map (entry numA) ++ List.replicate k ⟨none, List.replicate numA 1⟩) target ah =
      if (∃ r ∈ rows, |r.z| = target) ∨ k = 0 then .ok (ratioOf rows target ah) else .ub
  | [] => by
    cases k with
    | zero => simp [ratio, ratioOf]
    | succ k => simp [ratio, List.replicate_succ]
  | r :: rows => by
    have ih := ratio_entries target ah ha k rows
    rw [List.map_cons, List.cons_append]
    simp only [entry] at ih ⊢
    rw [ratio]
    by_cases hz : |r.z| = target
    · rw [if_pos hz, if_pos (Or.inl ⟨r, by simp, hz⟩)]
      unfold readAt
      rw [dif_pos ⟨by omega, by simpa using ha⟩]
      simp [ratioOf, hz]
    · rw [if_neg hz, ih]
      have : ratioOf (r :: rows) target ah = ratioOf rows target ah := by
        simp [ratioOf, hz]
      rw [this]
      simp [hz]

end CGMF.LevelText
