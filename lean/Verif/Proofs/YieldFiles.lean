import Verif.Model.YieldFiles
import Verif.Spec.YieldFiles
import Verif.Proofs.Data
import Verif.Tactics

/-! Lemmas on the readers of the yield parameters. -/

namespace CGMF.YFile

open CGMF.Data CGMF.Text CGMF.Spec

set_option linter.unusedSectionVars false

variable {K : Type} [Field K] [LinearOrder K]

theorem split_newline (a r : List Char) (ha : '\n' ∉ a) :
    (a ++ '\n' :: r).takeWhile (· ≠ '\n') = a ∧ (a ++ '\n' :: r).dropWhile (· ≠ '\n') = '\n' :: r :=
  takeWhile_append_stop (fun c => decide (c ≠ '\n')) a ('\n' :: r)
    (fun c hc => by simp; rintro rfl; exact ha hc) (by simp)

theorem getlineC_line (n : Nat) (a r : List Char) (ha : '\n' ∉ a) (hl : a.length < n) :
    getlineC n ⟨a ++ '\n' :: r, false, false⟩ = (a, ⟨r, false, false⟩) := by
  have h := split_newline a r ha
  unfold getlineC
  simp only [Bool.or_self, Bool.false_eq_true, if_false]
  rw [h.1, h.2, if_neg (by omega)]

theorem getlineC_nil (n : Nat) (hn : 0 < n) : getlineC n ⟨[], false, false⟩ = ([], ⟨[], true, true⟩) := by
  unfold getlineC
  simp; omega

theorem getlineC_last (n : Nat) (a : List Char) (ha : '\n' ∉ a) (hl : a.length < n) :
    getlineC n ⟨a, false, false⟩ = (a, ⟨[], true, a.isEmpty⟩) := by
  have h := takeWhile_append_stop (fun c => decide (c ≠ '\n')) a []
    (fun c hc => by simp; rintro rfl; exact ha hc) (by simp)
  rw [List.append_nil] at h
  unfold getlineC
  simp only [Bool.or_self, Bool.false_eq_true, if_false]
  rw [h.1, h.2, if_neg (by omega)]

theorem getlineC_bad (n : Nat) (r : List Char) : getlineC n ⟨r, false, true⟩ = ([], ⟨r, false, true⟩) := by
  simp [getlineC]

theorem takeNums_good (num : List Char → Option K) : ∀ (m : Nat) (ws : List (List Char)) (vals : List K),
    (ws.take m).map num = vals.map some → vals.length = m → takeNums num m ws = vals.map some
  | 0, ws, vals, _, hl => by
    have : vals = [] := List.length_eq_zero_iff.1 hl
    subst this; rfl
  | m + 1, [], vals, h, hl => by
    simp at h; subst h; simp at hl
  | m + 1, w :: ws, [], h, hl => by simp at hl
  | m + 1, w :: ws, v :: vals, h, hl => by
    simp only [List.take_succ_cons, List.map_cons, List.cons.injEq] at h
    simp only [takeNums, h.1, List.map_cons, takeNums_good num m ws vals h.2 (by simpa using hl)]

theorem zipWith_some : ∀ (vals : List K) (old : List (Option K)), vals.length = old.length →
    List.zipWith (fun n o => n <|> o) (vals.map some) old = vals.map some
  | [], [], _ => rfl
  | v :: vals, o :: old, h => by
    simp only [List.map_cons, List.zipWith_cons_cons, zipWith_some vals old (by simpa using h)]
    rfl

theorem takeNums_length (num : List Char → Option K) : ∀ (m : Nat) (ws : List (List Char)), (takeNums num m ws).length = m
  | 0, _ => rfl
  | m + 1, [] => by simp [takeNums]
  | m + 1, w :: ws => by
    simp only [takeNums]
    split
    · simp [takeNums_length num m ws]
    · simp

theorem loadRow_length (inum : List Char → Option Int) (num : List Char → Option K) (l : List Char) (old : List (Option K)) :
    (loadRow inum num l old).length = old.length := by
  unfold loadRow
  split
  · rfl
  · split
    · rfl
    · simp [takeNums_length]

theorem loadRow_row (inum : List Char → Option Int) (num : List Char → Option K) {t w : List Char} {ws : List (List Char)}
    {id : Int} {vals : List K} {old : List (Option K)} (hs : pySplit t = w :: ws) (hi : inum w = some id)
    (hv : (ws.take old.length).map num = vals.map some) (hl : vals.length = old.length) :
    loadRow inum num t old = vals.map some := by
  unfold loadRow
  rw [hs]
  simp only [hi]
  rw [takeNums_good num _ ws vals hv hl, zipWith_some vals old hl]

/-! ## Spec -/

theorem lastRow_append (rows : List (Int × List K)) (r : Int × List K) (id : Int) :
    lastRow (rows ++ [r]) id = if r.1 = id then some r.2 else lastRow rows id := by
  unfold lastRow
  rw [List.filter_append]
  by_cases h : r.1 = id
  · have : List.filter (fun r : Int × List K => r.1 == id) [r] = [r] := by simp [h]
    rw [this]; simp [h]
  · have : List.filter (fun r : Int × List K => r.1 == id) [r] = [] := by simp [h]
    rw [this]; simp [h]

theorem firstRow_cons (rows : List (Int × List K)) (r : Int × List K) (id : Int) :
    firstRow (r :: rows) id = if r.1 = id then some r.2 else firstRow rows id := by
  unfold firstRow
  by_cases h : r.1 = id
  · simp [List.filter_cons, h]
  · simp [List.filter_cons, h]

theorem lastRow_isSome (rows : List (Int × List K)) (id : Int) : (lastRow rows id).isSome ↔ ∃ r ∈ rows, r.1 = id := by
  unfold lastRow
  rw [Option.isSome_map]
  constructor
  · intro h
    obtain ⟨r, hr⟩ := Option.isSome_iff_exists.1 h
    have := List.mem_of_getLast? hr
    rw [List.mem_filter] at this
    exact ⟨r, this.1, by simpa using this.2⟩
  · rintro ⟨r, hr, hi⟩
    cases h : (rows.filter fun r => r.1 == id).getLast? with
    | some r => rfl
    | none =>
      have := List.getLast?_eq_none_iff.1 h
      rw [List.filter_eq_nil_iff] at this
      exact absurd (by simpa using hi) (this r hr)

theorem firstRow_isSome (rows : List (Int × List K)) (id : Int) : (firstRow rows id).isSome ↔ ∃ r ∈ rows, r.1 = id := by
  unfold firstRow
  rw [Option.isSome_map, List.isSome_head?]
  rw [Ne, List.filter_eq_nil_iff]
  simp

/-! ## Induced fission -/

/-- What the state holds after the lines `done`. -/
structure Inv (k : Kind) (cn : Int) (rows : List (Int × List K)) (st : St K) : Prop where
  len : st.rows.length = 4
  slen : st.supp.length = 4
  width : ∀ n : Nat, n < 4 → (st.rows.getD n []).length = k.vals
  own : ∀ n : Nat, n < 4 → ∀ v, lastRow rows (cn - (n : Int)) = some v → st.rows.getD n [] = v.map some ∧ st.supp.getD n false = true
  none : ∀ n : Nat, n < 4 → lastRow rows (cn - (n : Int)) = none →
    st.supp.getD n false = false ∧ st.rows.getD n [] = List.replicate k.vals none
  found : st.found = true ↔ (lastRow rows cn).isSome
  id : st.id = (rows.getLast?).map Prod.fst

theorem inv_start (k : Kind) (cn : Int) : Inv k cn ([] : List (Int × List K)) (start k) := by
  constructor
  · simp [start]
  · simp [start]
  · intro n hn
    rcases n with _ | _ | _ | _ | n <;> first | omega | (simp [start, List.getD, List.replicate])
  · intro n hn v hv; simp [lastRow] at hv
  · intro n hn _
    rcases n with _ | _ | _ | _ | n <;> first | omega | (simp [start, List.getD, List.replicate])
  · simp [start, lastRow]
  · simp [start]

theorem getD_set_self {α : Type} (l : List α) (n : Nat) (a d : α) (h : n < l.length) : (l.set n a).getD n d = a := by
  simp [List.getD, h]

theorem getD_set_ne {α : Type} (l : List α) (n m : Nat) (a d : α) (h : n ≠ m) : (l.set n a).getD m d = l.getD m d := by
  simp [List.getD, h]

theorem id_mem {k : Kind} {cn : Int} {rows : List (Int × List K)} {st : St K} (h : Inv k cn rows st) {i : Int}
    (hi : st.id = some i) : (lastRow rows i).isSome := by
  rw [lastRow_isSome]
  rw [h.id] at hi
  cases hl : rows.getLast? with
  | none => simp [hl] at hi
  | some r =>
    rw [hl] at hi
    exact ⟨r, List.mem_of_getLast? hl, by simpa using hi⟩

/-- One line that is no comment. -/
theorem lineStep_good {k : Kind} (hk : k.used ≤ k.vals) {inum : List Char → Option Int} {num : List Char → Option K}
    {cn : Int} {rows : List (Int × List K)} {st : St K} (hst : Inv k cn rows st) {l : YLine K}
    (hl : l.Good inum num k.buf k.vals k.accept) (hnc : l.text.head? ≠ some '#')
    (ho : ∀ t, l = .other t → k.accept 0 = true → rows ≠ []) :
    ∃ st', lineStep k inum num cn false l.text st = .ok (st', false) ∧ Inv k cn (rows ++ l.data) st' := by
  obtain ⟨hn, hlen, hl⟩ := hl
  cases l with
  | comment t => exact absurd hl hnc
  | other t =>
    obtain ⟨-, hl⟩ := hl
    simp only [YLine.text, YLine.data, List.append_nil]
    unfold lineStep
    by_cases ha : k.accept (pySplit t).length = true
    · have hs : pySplit t = [] := by
        rcases hl with hl | hl
        · exact hl
        · rw [hl] at ha; exact absurd ha (by decide)
      rw [hs] at ha ⊢
      simp only [ha, if_true, Bool.false_eq_true, if_false]
      have hne := ho t rfl (by simpa using ha)
      obtain ⟨i, hi⟩ : ∃ i, st.id = some i := by
        rw [hst.id]
        cases h : rows.getLast? with
        | none => exact absurd (List.getLast?_eq_none_iff.1 h) hne
        | some r => exact ⟨r.1, rfl⟩
      rw [hi]
      simp only
      have hsame : ({ st with id := some i } : St K) = st := by rw [← hi]
      rw [hsame]
      by_cases hr : 0 ≤ cn - i ∧ cn - i < 4
      · rw [if_pos hr]
        obtain ⟨n, hn4, hni⟩ : ∃ n : Nat, n < 4 ∧ cn - i = n := ⟨(cn - i).toNat, by omega, by omega⟩
        rw [hni, Int.toNat_natCast]
        have hsome := id_mem hst hi
        obtain ⟨v, hv⟩ := Option.isSome_iff_exists.1 hsome
        have hin : i = cn - (n : Int) := by omega
        rw [hin] at hv
        obtain ⟨h1, h2⟩ := hst.own n hn4 v hv
        have hrow : loadRow inum num t (st.rows.getD n []) = st.rows.getD n [] := by
          unfold loadRow; rw [hs]
        unfold load
        simp only [hrow]
        have hall : ((st.rows.getD n []).take k.used).all Option.isSome = true := by
          rw [h1, List.all_eq_true]
          intro o ho'
          have := List.mem_of_mem_take ho'
          rw [List.mem_map] at this
          obtain ⟨x, -, rfl⟩ := this
          rfl
        rw [if_pos hall]
        refine ⟨_, rfl, ?_⟩
        have hl4 := hst.len
        have hs4 := hst.slen
        constructor
        · simpa using hl4
        · simpa using hs4
        · intro m hm
          by_cases hmn : n = m
          · subst hmn
            rw [getD_set_self _ _ _ _ (by omega)]
            exact hst.width n hm
          · rw [getD_set_ne _ _ _ _ _ hmn]; exact hst.width m hm
        · intro m hm v' hv'
          by_cases hmn : n = m
          · subst hmn
            simp only [getD_set_self _ _ _ _ (show n < st.rows.length by omega),
              getD_set_self _ _ _ _ (show n < st.supp.length by omega)]
            exact ⟨(hst.own n hm v' hv').1, trivial⟩
          · simp only [getD_set_ne _ _ _ _ _ hmn]
            exact hst.own m hm v' hv'
        · intro m hm hv'
          by_cases hmn : n = m
          · subst hmn; rw [hv] at hv'; exact absurd hv' (by simp)
          · simp only [getD_set_ne _ _ _ _ _ hmn]
            exact hst.none m hm hv'
        · simp only [Bool.or_eq_true, beq_iff_eq]
          constructor
          · rintro (h | h)
            · exact hst.found.1 h
            · subst h
              simp at hv
              rw [hv]; rfl
          · intro h; exact Or.inl (hst.found.2 h)
        · exact hst.id
      · rw [if_neg hr]
        exact ⟨st, rfl, hst⟩
    · rw [if_neg ha]
      exact ⟨st, rfl, hst⟩
  | row t id vals =>
    obtain ⟨-, w, ws, hs, hi, hv, hvl, hacc⟩ := hl
    simp only [YLine.text, YLine.data]
    unfold lineStep
    rw [hs]
    simp only [List.length_cons, hacc, if_true, hi, Option.getD_some, Bool.false_eq_true, if_false]
    by_cases hr : 0 ≤ cn - id ∧ cn - id < 4
    · rw [if_pos hr]
      obtain ⟨n, hn4, hni⟩ : ∃ n : Nat, n < 4 ∧ cn - id = n := ⟨(cn - id).toNat, by omega, by omega⟩
      rw [hni, Int.toNat_natCast]
      have hin : id = cn - (n : Int) := by omega
      have hrow : loadRow inum num t (st.rows.getD n []) = vals.map some :=
        loadRow_row inum num hs hi (by rw [hst.width n hn4]; exact hv) (by rw [hst.width n hn4]; exact hvl)
      unfold load
      simp only [hrow]
      have hall : ((vals.map some).take k.used).all Option.isSome = true := by
        rw [List.all_eq_true]
        intro o ho'
        have := List.mem_of_mem_take ho'
        rw [List.mem_map] at this
        obtain ⟨x, -, rfl⟩ := this
        rfl
      rw [if_pos hall]
      refine ⟨_, rfl, ?_⟩
      have hl4 := hst.len
      have hs4 := hst.slen
      constructor
      · simpa using hl4
      · simpa using hs4
      · intro m hm
        by_cases hmn : n = m
        · subst hmn
          rw [getD_set_self _ _ _ _ (by omega)]
          simpa using hvl
        · rw [getD_set_ne _ _ _ _ _ hmn]; exact hst.width m hm
      · intro m hm v' hv'
        rw [lastRow_append] at hv'
        by_cases hmn : n = m
        · subst hmn
          rw [if_pos hin] at hv'
          simp only [getD_set_self _ _ _ _ (show n < st.rows.length by omega),
            getD_set_self _ _ _ _ (show n < st.supp.length by omega)]
          simp only [Option.some.injEq] at hv'
          rw [hv']; exact ⟨rfl, trivial⟩
        · rw [if_neg (by omega)] at hv'
          simp only [getD_set_ne _ _ _ _ _ hmn]
          exact hst.own m hm v' hv'
      · intro m hm hv'
        rw [lastRow_append] at hv'
        by_cases hmn : n = m
        · subst hmn
          rw [if_pos hin] at hv'
          exact absurd hv' (by simp)
        · rw [if_neg (by omega)] at hv'
          simp only [getD_set_ne _ _ _ _ _ hmn]
          exact hst.none m hm hv'
      · rw [lastRow_append]
        simp only [Bool.or_eq_true, beq_iff_eq]
        by_cases hz : n = 0
        · subst hz
          rw [if_pos (by omega)]
          simp
        · rw [if_neg (by omega)]
          simp only [hz, or_false]
          exact hst.found
      · simp
    · rw [if_neg hr]
      refine ⟨_, rfl, ?_⟩
      have hne : ∀ m : Nat, m < 4 → id ≠ cn - (m : Int) := by intro m hm; omega
      constructor
      · exact hst.len
      · exact hst.slen
      · exact hst.width
      · intro m hm v' hv'
        rw [lastRow_append, if_neg (hne m hm)] at hv'
        exact hst.own m hm v' hv'
      · intro m hm hv'
        rw [lastRow_append, if_neg (hne m hm)] at hv'
        exact hst.none m hm hv'
      · rw [lastRow_append, if_neg (by simpa using hne 0 (by omega))]
        exact hst.found
      · simp

theorem opened_tail {accept : Nat → Bool} {rows : List (Int × List K)} {l : YLine K} {ls : List (YLine K)}
    (ho : accept 0 = true → ∀ a t b, l :: ls = a ++ YLine.other t :: b → rows ++ yRows a ≠ []) :
    accept 0 = true → ∀ a t b, ls = a ++ YLine.other t :: b → (rows ++ l.data) ++ yRows a ≠ [] := by
  intro h0 a t b hab
  have := ho h0 (l :: a) t b (by rw [hab]; rfl)
  simpa [yRows, List.append_assoc] using this

/-- The whole file, for induced fission. -/
theorem loop_good {k : Kind} (hk : k.used ≤ k.vals) (hb : 0 < k.buf) {inum : List Char → Option Int}
    {num : List Char → Option K} {cn : Int} : ∀ (ls : List (YLine K)) (rows : List (Int × List K)) (st : St K) (fuel : Nat),
    Inv k cn rows st → (∀ l ∈ ls, l.Good inum num k.buf k.vals k.accept) →
    (k.accept 0 = true → ∀ a t b, ls = a ++ YLine.other t :: b → rows ++ yRows a ≠ []) → ls.length < fuel →
    ∃ st', loop k inum num cn false fuel (getlineC k.buf ⟨yText ls, false, false⟩).1
        (getlineC k.buf ⟨yText ls, false, false⟩).2 st = .ok st' ∧ Inv k cn (rows ++ yRows ls) st'
  | [], rows, st, fuel, hst, _, _, hf => by
    obtain ⟨f, rfl⟩ : ∃ f, fuel = f + 1 := ⟨fuel - 1, by simp at hf; omega⟩
    refine ⟨st, ?_, by simpa [yRows] using hst⟩
    have : yText ([] : List (YLine K)) = [] := rfl
    rw [this, getlineC_nil _ hb]
    rfl
  | l :: ls, rows, st, fuel, hst, hg, ho, hf => by
    obtain ⟨f, rfl⟩ : ∃ f, fuel = f + 1 := ⟨fuel - 1, by simp at hf; omega⟩
    have hl := hg l (by simp)
    have htext : yText (l :: ls) = l.text ++ '\n' :: yText ls := by simp [yText]
    rw [htext, getlineC_line _ _ _ hl.1 hl.2.1]
    have hrows : rows ++ yRows (l :: ls) = (rows ++ l.data) ++ yRows ls := by simp [yRows]
    rw [hrows]
    simp only [loop, Bool.false_eq_true, if_false]
    by_cases hc : l.text.head? = some '#'
    · rw [if_pos hc]
      have hd : l.data = [] := by
        cases l with
        | comment t => rfl
        | other t => exact absurd hc hl.2.2.1
        | row t id v => exact absurd hc hl.2.2.1
      have := opened_tail ho
      rw [hd, List.append_nil] at this ⊢
      exact loop_good hk hb ls rows st f hst (fun x hx => hg x (by simp [hx])) this (by simpa using hf)
    · rw [if_neg hc]
      obtain ⟨st', h1, h2⟩ := lineStep_good hk hst hl hc (fun t ht h0 => by
        have := ho h0 [] t ls (by rw [ht]; rfl)
        simpa [yRows] using this)
      rw [h1]
      exact loop_good hk hb ls _ st' f h2 (fun x hx => hg x (by simp [hx])) (opened_tail ho) (by simpa using hf)

/-! ## Spontaneous fission -/

/-- Before the row of the nucleus. -/
structure Waiting (k : Kind) (cn : Int) (seen : Bool) (st : St K) : Prop where
  start : st.rows = List.replicate 4 (List.replicate k.vals none)
  supp : st.supp = List.replicate 4 false
  found : st.found = false
  id : ∀ i, st.id = some i → -i ≠ cn
  seen : seen = true → st.id ≠ none

theorem loop_sf {k : Kind} (hb : 0 < k.buf) {inum : List Char → Option Int}
    {num : List Char → Option K} {cn : Int} : ∀ (ls : List (YLine K)) (rows : List (Int × List K)) (st : St K) (fuel : Nat),
    Waiting k cn (!rows.isEmpty) st → (∀ l ∈ ls, l.Good inum num k.buf k.vals k.accept) →
    (k.accept 0 = true → ∀ a t b, ls = a ++ YLine.other t :: b → rows ++ yRows a ≠ []) → ls.length < fuel →
    ∃ st', loop k inum num cn true fuel (getlineC k.buf ⟨yText ls, false, false⟩).1
        (getlineC k.buf ⟨yText ls, false, false⟩).2 st = .ok st' ∧
      match firstRow (yRows ls) (-cn) with
      | some v => st'.rows = (v.map some) :: List.replicate 3 (List.replicate k.vals none) ∧
          st'.supp = [true, false, false, false] ∧ st'.found = true
      | none => st'.rows = List.replicate 4 (List.replicate k.vals none) ∧ st'.supp = List.replicate 4 false ∧
          st'.found = false
  | [], rows, st, fuel, hst, _, _, hf => by
    obtain ⟨f, rfl⟩ : ∃ f, fuel = f + 1 := ⟨fuel - 1, by simp at hf; omega⟩
    refine ⟨st, ?_, ?_⟩
    · have : yText ([] : List (YLine K)) = [] := rfl
      rw [this, getlineC_nil _ hb]
      rfl
    · have : firstRow (yRows ([] : List (YLine K))) (-cn) = none := rfl
      rw [this]
      exact ⟨hst.start, hst.supp, hst.found⟩
  | l :: ls, rows, st, fuel, hst, hg, ho, hf => by
    obtain ⟨f, rfl⟩ : ∃ f, fuel = f + 1 := ⟨fuel - 1, by simp at hf; omega⟩
    have hl := hg l (by simp)
    have htext : yText (l :: ls) = l.text ++ '\n' :: yText ls := by simp [yText]
    rw [htext, getlineC_line _ _ _ hl.1 hl.2.1]
    simp only [loop, Bool.false_eq_true, if_false]
    have hrows : yRows (l :: ls) = l.data ++ yRows ls := by simp [yRows]
    rw [hrows]
    have htail := opened_tail ho
    cases l with
    | comment t =>
      rw [if_pos (show (YLine.comment t : YLine K).text.head? = some '#' from hl.2.2)]
      simp only [YLine.data, List.append_nil] at htail
      exact loop_sf hb ls rows st f hst (fun x hx => hg x (by simp [hx])) htail (by simpa using hf)
    | other t =>
      obtain ⟨hn, hlen, hc, hs⟩ := hl
      simp only [YLine.data, List.append_nil, List.nil_append] at htail ⊢
      have hrec := loop_sf hb ls rows st f hst (fun x hx => hg x (by simp [hx])) htail (by simpa using hf)
      rw [if_neg (show ¬ (YLine.other t : YLine K).text.head? = some '#' from hc)]
      have hstep : lineStep k inum num cn true (YLine.text (.other t : YLine K)) st = .ok (st, false) := by
        simp only [YLine.text]
        unfold lineStep
        by_cases ha : k.accept (pySplit t).length = true
        · have hs' : pySplit t = [] := by
            rcases hs with hs | hs
            · exact hs
            · rw [hs] at ha; exact absurd ha (by decide)
          rw [hs'] at ha ⊢
          simp only [ha, if_true]
          have hne : rows ≠ [] := by
            have := ho (by simpa using ha) [] t ls rfl
            simpa [yRows] using this
          have hid := hst.seen (by cases rows <;> simp_all)
          obtain ⟨i, hi⟩ := Option.ne_none_iff_exists'.1 hid
          rw [hi]
          have hsame : ({ st with id := some i } : St K) = st := by rw [← hi]
          simp only [hsame]
          rw [if_neg (hst.id i hi)]
        · rw [if_neg ha]
      rw [hstep]
      exact hrec
    | row t id vals =>
      obtain ⟨hn, hlen, hc, w, ws, hs, hi, hv, hvl, hacc⟩ := hl
      rw [if_neg (show ¬ (YLine.row t id vals : YLine K).text.head? = some '#' from hc)]
      simp only [YLine.data, List.singleton_append, firstRow_cons]
      by_cases hid : -id = cn
      · have hstep : lineStep k inum num cn true (YLine.text (.row t id vals : YLine K)) st =
            .ok (⟨(vals.map some) :: List.replicate 3 (List.replicate k.vals none), [true, false, false, false], true,
              some id⟩, true) := by
          simp only [YLine.text]
          unfold lineStep
          rw [hs]
          simp only [List.length_cons, hacc, if_true, hi, Option.getD_some, hid]
          have hrow : loadRow inum num t (List.replicate k.vals none) = vals.map some :=
            loadRow_row inum num hs hi (by simpa using hv) (by simpa using hvl)
          unfold load
          simp only [hst.start, hst.supp, hst.found]
          have h0 : (List.replicate 4 (List.replicate k.vals (none : Option K))).getD 0 [] = List.replicate k.vals none := rfl
          rw [h0, hrow]
          have hall : ((vals.map some).take k.used).all Option.isSome = true := by
            rw [List.all_eq_true]
            intro o ho'
            have := List.mem_of_mem_take ho'
            rw [List.mem_map] at this
            obtain ⟨x, -, rfl⟩ := this
            rfl
          rw [if_pos hall]
          rfl
        rw [hstep]
        rw [if_pos (by omega)]
        exact ⟨_, rfl, rfl, rfl, rfl⟩
      · have hstep : lineStep k inum num cn true (YLine.text (.row t id vals : YLine K)) st =
            .ok ({ st with id := some id }, false) := by
          simp only [YLine.text]
          unfold lineStep
          rw [hs]
          simp only [List.length_cons, hacc, if_true, hi, Option.getD_some, hid, if_false]
        rw [hstep, if_neg (by omega)]
        simp only [YLine.data] at htail
        exact loop_sf hb ls (rows ++ [(id, vals)]) _ f
          ⟨hst.start, hst.supp, hst.found, fun i h => by simp only [Option.some.injEq] at h; subst h; exact hid, by simp⟩
          (fun x hx => hg x (by simp [hx])) htail (by simpa using hf)

/-! ## The choice -/

theorem known_map (v : List K) (i : Nat) (h : i < v.length) : known (v.map some) (i : Int) = .ok v[i] := by
  unfold known readAt
  rw [dif_pos ⟨by omega, by simpa using h⟩]
  simp [Res.bind]

theorem knownFrom_map (v : List K) : ∀ (m i : Nat), i + m ≤ v.length →
    knownFrom (v.map some) m (i : Int) = .ok ((v.drop i).take m)
  | 0, i, _ => by simp [knownFrom]
  | m + 1, i, h => by
    have h1 := known_map v i (by omega)
    have h2 := knownFrom_map v m (i + 1) (by omega)
    push_cast at h2
    simp only [knownFrom, h1, Res.bind, h2]
    rw [List.drop_eq_getElem_cons (by omega : i < v.length), List.take_succ_cons]

end CGMF.YFile

namespace CGMF.YFile

open CGMF.Data CGMF.Text CGMF.Spec

variable {K : Type} [Field K] [LinearOrder K]

/-! ## Lines that spoil the file -/

omit [Field K] [LinearOrder K] in
theorem yText_append (l : YLine K) (ls : List (YLine K)) (r : List Char) :
    yText (l :: ls) ++ r = l.text ++ '\n' :: (yText ls ++ r) := by simp [yText]

/-- A last line without newline is not seen. -/
theorem loop_unended {k : Kind} (hb : 0 < k.buf) {inum : List Char → Option Int} {num : List Char → Option K} {cn : Int}
    {sf : Bool} {t : List Char} (ht : '\n' ∉ t) (htl : t.length < k.buf) : ∀ (ls : List (YLine K)) (st : St K) (fuel : Nat),
    (∀ l ∈ ls, '\n' ∉ l.text ∧ l.text.length < k.buf) →
    loop k inum num cn sf fuel (getlineC k.buf ⟨yText ls ++ t, false, false⟩).1
        (getlineC k.buf ⟨yText ls ++ t, false, false⟩).2 st =
      loop k inum num cn sf fuel (getlineC k.buf ⟨yText ls, false, false⟩).1
        (getlineC k.buf ⟨yText ls, false, false⟩).2 st
  | _, st, 0, _ => rfl
  | [], st, f + 1, _ => by
    have : yText ([] : List (YLine K)) = [] := rfl
    rw [this, List.nil_append, getlineC_nil _ hb, getlineC_last _ t ht htl]
    rfl
  | l :: ls, st, f + 1, hg => by
    have hl := hg l (by simp)
    have h1 : yText (l :: ls) = l.text ++ '\n' :: yText ls := by simp [yText]
    rw [yText_append, h1, getlineC_line _ _ _ hl.1 hl.2, getlineC_line _ _ _ hl.1 hl.2]
    have ih := fun st => loop_unended hb ht htl ls st f (fun x hx => hg x (by simp [hx])) (inum := inum) (num := num)
      (cn := cn) (sf := sf)
    simp only [loop, ih]

/-- More steps do not change a result. -/
theorem loop_mono {k : Kind} {inum : List Char → Option Int} {num : List Char → Option K} {cn : Int} {sf : Bool} :
    ∀ (f : Nat) (c : List Char) (s : In) (st : St K), loop k inum num cn sf (f + 1) c s st = .more →
      loop k inum num cn sf f c s st = .more
  | 0, _, _, _, _ => rfl
  | f + 1, c, s, st, h => by
    rw [loop] at h ⊢
    by_cases he : s.eof = true
    · rw [if_pos he] at h; exact absurd h (by simp)
    · rw [if_neg he] at h ⊢
      by_cases hc : c.head? = some '#'
      · rw [if_pos hc] at h ⊢
        exact loop_mono f _ _ _ h
      · rw [if_neg hc] at h ⊢
        cases hl : lineStep k inum num cn sf c st with
        | ok p =>
          obtain ⟨st', b⟩ := p
          rw [hl] at h
          cases b with
          | true => exact absurd h (by simp)
          | false => exact loop_mono f _ _ _ h
        | exit => rw [hl] at h; exact absurd h (by simp)
        | ub => rw [hl] at h; exact absurd h (by simp)

theorem loop_mono' {k : Kind} {inum : List Char → Option Int} {num : List Char → Option K} {cn : Int} {sf : Bool}
    (f m : Nat) (c : List Char) (s : In) (st : St K) (h : loop k inum num cn sf (f + m) c s st = .more) :
    loop k inum num cn sf f c s st = .more := by
  induction m with
  | zero => exact h
  | succ m ih => exact ih (loop_mono _ _ _ _ h)

/-- Well-formed lines before anything else. -/
theorem loop_prefix {k : Kind} (hk : k.used ≤ k.vals) {inum : List Char → Option Int}
    {num : List Char → Option K} {cn : Int} (r : List Char) : ∀ (ls : List (YLine K)) (rows : List (Int × List K)) (st : St K),
    Inv k cn rows st → (∀ l ∈ ls, l.Good inum num k.buf k.vals k.accept) →
    (k.accept 0 = true → ∀ a t b, ls = a ++ YLine.other t :: b → rows ++ yRows a ≠ []) →
    ∃ st', Inv k cn (rows ++ yRows ls) st' ∧ ∀ f,
      loop k inum num cn false (f + ls.length) (getlineC k.buf ⟨yText ls ++ r, false, false⟩).1
        (getlineC k.buf ⟨yText ls ++ r, false, false⟩).2 st =
      loop k inum num cn false f (getlineC k.buf ⟨r, false, false⟩).1 (getlineC k.buf ⟨r, false, false⟩).2 st'
  | [], rows, st, hst, _, _ => ⟨st, by simpa [yRows] using hst, fun f => rfl⟩
  | l :: ls, rows, st, hst, hg, ho => by
    have hl := hg l (by simp)
    have hrows : rows ++ yRows (l :: ls) = (rows ++ l.data) ++ yRows ls := by simp [yRows]
    rw [hrows, yText_append, getlineC_line _ _ _ hl.1 hl.2.1]
    by_cases hc : l.text.head? = some '#'
    · have hd : l.data = [] := by
        cases l with
        | comment t => rfl
        | other t => exact absurd hc hl.2.2.1
        | row t id v => exact absurd hc hl.2.2.1
      have := opened_tail ho
      rw [hd, List.append_nil] at this ⊢
      obtain ⟨st', h1, h2⟩ := loop_prefix hk r ls rows st hst (fun x hx => hg x (by simp [hx])) this
      refine ⟨st', h1, fun f => ?_⟩
      rw [← h2 f, List.length_cons, ← Nat.add_assoc, loop]
      simp [hc]
    · obtain ⟨st₁, h1, h2⟩ := lineStep_good hk hst hl hc (fun t ht h0 => by
        have := ho h0 [] t ls (by rw [ht]; rfl)
        simpa [yRows] using this)
      obtain ⟨st', h3, h4⟩ := loop_prefix hk r ls _ st₁ h2 (fun x hx => hg x (by simp [hx])) (opened_tail ho)
      refine ⟨st', h3, fun f => ?_⟩
      rw [← h4 f, List.length_cons, ← Nat.add_assoc, loop]
      simp [hc, h1]

/-- After a line that does not fit, an empty buffer for ever. -/
theorem loop_stuck {k : Kind} {inum : List Char → Option Int} {num : List Char → Option K} {cn : Int} (r : List Char) :
    ∀ (f : Nat) (st : St K), (k.accept 0 = false ∨ (k.used = 0 ∧ st.id ≠ none)) →
      loop k inum num cn false f [] ⟨r, false, true⟩ st = .more
  | 0, _, _ => rfl
  | f + 1, st, h => by
    rw [loop]
    simp only [Bool.false_eq_true, if_false, List.head?_nil, reduceCtorEq, getlineC_bad]
    rcases h with h | ⟨h, hid⟩
    · have : lineStep k inum num cn false [] st = .ok (st, false) := by
        unfold lineStep
        have : pySplit [] = [] := rfl
        simp [this, h]
      rw [this]
      exact loop_stuck r f st (Or.inl h)
    · obtain ⟨i, hi⟩ := Option.ne_none_iff_exists'.1 hid
      have : ∃ st', lineStep k inum num cn false [] st = .ok (st', false) ∧ st'.id = some i := by
        unfold lineStep
        have hs : pySplit [] = [] := rfl
        by_cases ha : k.accept 0 = true
        · simp only [hs, List.length_nil, ha, if_true, hi, Bool.false_eq_true, if_false]
          by_cases hr : 0 ≤ cn - i ∧ cn - i < 4
          · rw [if_pos hr]
            unfold load
            simp only [h, List.take_zero, List.all_nil, if_true]
            exact ⟨_, rfl, rfl⟩
          · rw [if_neg hr]
            exact ⟨_, rfl, rfl⟩
        · simp only [hs, List.length_nil, if_neg ha]
          exact ⟨st, rfl, hi⟩
      obtain ⟨st', h1, h2⟩ := this
      rw [h1]
      exact loop_stuck r f st' (Or.inr ⟨h, by rw [h2]; simp⟩)

/-- A comment that does not fit. -/
theorem loop_long {k : Kind} (hb : 1 < k.buf) {inum : List Char → Option Int} {num : List Char → Option K} {cn : Int}
    (l r : List Char) (hl : '\n' ∉ l) (hlen : k.buf ≤ l.length) (hc : l.head? = some '#') (f : Nat) (st : St K)
    (h : k.accept 0 = false ∨ (k.used = 0 ∧ st.id ≠ none)) :
    loop k inum num cn false f (getlineC k.buf ⟨l ++ '\n' :: r, false, false⟩).1
      (getlineC k.buf ⟨l ++ '\n' :: r, false, false⟩).2 st = .more := by
  have hg : getlineC k.buf ⟨l ++ '\n' :: r, false, false⟩ =
      (l.take (k.buf - 1), ⟨(l ++ '\n' :: r).drop (k.buf - 1), false, true⟩) := by
    unfold getlineC
    simp only [Bool.or_self, Bool.false_eq_true, if_false]
    rw [(split_newline l r hl).1, if_pos hlen]
  rw [hg]
  cases f with
  | zero => rfl
  | succ f =>
    rw [loop]
    have : (l.take (k.buf - 1)).head? = some '#' := by
      rw [List.head?_take, if_neg (by omega)]; exact hc
    simp only [Bool.false_eq_true, if_false, this, if_true, getlineC_bad]
    exact loop_stuck _ f st h

end CGMF.YFile
