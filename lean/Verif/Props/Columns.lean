import Verif.Spec.Columns
import Verif.Props.CNumber
import Verif.Props.Data
import Verif.Props.RtaTable

/-!
# C141: tables printed in columns are read digit for digit

Readable from the statements with `Spec/Columns.lean`, `Spec/Data.lean`, `Spec/LevelText.lean` and `Spec/RtaTable.lean`.
The conversions are those of `Model/CNumber.lean`.
-/

namespace CGMF.Props

open CGMF CGMF.Text CGMF.Data CGMF.Ripl CGMF.LevelText CGMF.Spec CGMF.CNum

/-- `atoi`, `atof`, and twice the value of `atof` (the spins are stored as doubles; whole twice). -/
def libConv : Conv ℚ := ⟨CNum.atoi, CNum.atof, fun s => ⌊2 * CNum.atof s⌋⟩

private theorem blank_ws {b : List Char} (h : ∀ c ∈ b, c = ' ') : ∀ c ∈ b, isWs c = true := by
  intro c hc
  rw [h c hc]
  rfl

private theorem blank_head {b rest : List Char} (h : ∀ c ∈ b, c = ' ') {p : Char → Prop} (h0 : p ' ') (hr : ∀ c ∈ rest.head?, p c) :
    ∀ c ∈ (b ++ rest).head?, p c := by
  cases b with
  | nil => exact hr
  | cons a b =>
      intro c hc
      simp only [List.cons_append, List.head?_cons, Option.mem_some_iff] at hc
      rw [← hc, h a (by simp)]
      exact h0

/-- A column of a whole number is read as this number, with whatever follows that is no digit. -/
theorem atoi_col {n : Nat} {f : List Char} {i : Int} (h : IntCol n f i) {rest : List Char}
    (hr : ∀ c ∈ rest.head?, isDigit c = false) : CNum.atoi (f ++ rest) = i := by
  obtain ⟨-, b, w, b', rfl, hb, hb', hw⟩ := h
  rw [List.append_assoc, List.append_assoc]
  exact C139_atoi hw b (b' ++ rest) (blank_ws hb) (blank_head hb' (p := fun c => isDigit c = false) rfl hr)

/-- A column of a decimal number is read as this number, with whatever follows that cannot be part of one. -/
theorem atof_col {n : Nat} {f : List Char} {x : ℚ} (h : NumCol n f x) {rest : List Char} (hr : Ends rest) :
    CNum.atof (f ++ rest) = x := by
  obtain ⟨-, b, w, b', rfl, hb, hb', hw⟩ := h
  rw [List.append_assoc, List.append_assoc]
  exact C139_atof hw b (b' ++ rest) (blank_ws hb)
    (blank_head hb' (p := fun c => isDigit c = false ∧ c ≠ '.' ∧ c ≠ 'e' ∧ c ≠ 'E') (by decide) hr)

theorem atoi_col' {n : Nat} {f : List Char} {i : Int} (h : IntCol n f i) : CNum.atoi f = i := by
  simpa using atoi_col h (rest := []) (by simp)

theorem atof_col' {n : Nat} {f : List Char} {x : ℚ} (h : NumCol n f x) : CNum.atof f = x := by
  simpa using atof_col h (rest := []) (by simp [Ends])

/-- The columns after the first `a` of a line. -/
theorem cols_skip (f r : List Char) (a n : Nat) (h : f.length ≤ a) : cols (f ++ r) a n = cols r (a - f.length) n := by
  unfold cols
  rw [List.drop_append, List.drop_eq_nil_of_le h, List.nil_append]

theorem cols_here (f r : List Char) {n : Nat} (h : f.length = n) : cols (f ++ r) 0 n = f := by
  unfold cols
  rw [List.drop_zero, ← h, List.take_left]

/-- **C141** (masses). -/
theorem C141_masses (size : Nat) (ls : List (MLine ℚ)) (hg : ∀ l ∈ ls, PrintedMass size l)
    (hd : (ls.flatMap MLine.data).Pairwise fun a b => a.zaid ≠ b.zaid) (cwd dir : Option (List Char))
    (hf : Given cwd dir (commentText (ls.map MLine.text))) :
    ∃ tab, readMasses CNum.atoi CNum.atof size cwd dir = .ok tab ∧
      (∀ c ∈ ls.flatMap MLine.data, c.mass ≠ 0 → getMassExcess tab c.zaid = .ok c.mass) ∧
      ∀ z : Int, 0 ≤ z → z < size → (∀ c ∈ ls.flatMap MLine.data, c.zaid = z → c.mass = 0) → getMassExcess tab z = .exit := by
  refine C94_masses CNum.atoi CNum.atof size ls (fun l hl => ?_) hd cwd dir hf
  have := hg l hl
  cases l with
  | comment l => exact this
  | cells cs tail =>
      refine ⟨fun c hc => ?_, this.2⟩
      obtain ⟨h1, h2, h3, h4, h5, h6, h7⟩ := this.1 c hc
      refine ⟨⟨h1.1, h3.1, h2, atoi_col' h1, h4, h5, fun x hx => atof_col h3 fun a ha => ?_⟩, h6, h7⟩
      rcases hx with rfl | hx | hx
      · simp at ha
      · rw [hx] at ha; cases ha; decide
      · rw [hx] at ha; cases ha; decide

/-- **C141** (deformations). -/
theorem C141_deformations (unset dflt : ℚ) (size : Nat) (ls : List (DLine ℚ)) (hg : ∀ l ∈ ls, PrintedDef size l)
    (hd : (ls.flatMap DLine.data).Pairwise fun a b => a.zaid ≠ b.zaid) (hu : ∀ c ∈ ls.flatMap DLine.data, c.mass ≠ unset)
    (cwd dir : Option (List Char)) (hf : Given cwd dir (commentText (ls.map DLine.text))) :
    ∃ tab, readDeformations CNum.atoi CNum.atof unset size cwd dir = .ok tab ∧
      (∀ c ∈ ls.flatMap DLine.data, getDeformation unset dflt tab c.zaid = .ok c.mass) ∧
      ∀ z : Int, 0 ≤ z → z < size → (∀ c ∈ ls.flatMap DLine.data, c.zaid ≠ z) → getDeformation unset dflt tab z = .ok dflt := by
  refine C94_deformations CNum.atoi CNum.atof unset dflt size ls (fun l hl => ?_) hd hu cwd dir hf
  have := hg l hl
  have hcut : ∀ (fz fa r : List Char) {z a : Int}, IntCol 4 fz z → IntCol 4 fa a → (∀ c ∈ r.head?, isDigit c = false) →
      CNum.atoi ((fz ++ (fa ++ r)).take 4) = z ∧ CNum.atoi (((fz ++ (fa ++ r)).drop 4).take 8) = a := by
    intro fz fa r z a h1 h2 hr
    rw [← h1.1, List.take_left, List.drop_left, List.take_append, List.take_of_length_le (by rw [h2.1]; omega)]
    refine ⟨atoi_col' h1, atoi_col h2 fun c hc => hr c ?_⟩
    rw [h2.1] at hc
    cases r with
    | nil => simp at hc
    | cons a r => simpa using hc
  cases l with
  | comment l => exact this
  | entry l z a x =>
      obtain ⟨h1, h2, fz, fa, mid, fb, tail, rfl, hz, ha, hm, hmd, hb, ht, h6, g1, g2, g3, g4, g5⟩ := this
      have hmd' : ∀ c ∈ (mid ++ (fb ++ tail)).head?, isDigit c = false := by
        cases mid with
        | nil => simp at hm
        | cons c m => simpa using hmd
      obtain ⟨k1, k2⟩ := hcut fz fa _ hz ha hmd'
      have hdrop : (fz ++ (fa ++ (mid ++ (fb ++ tail)))).drop 44 = fb ++ tail := by
        have : 44 = (fz ++ (fa ++ mid)).length := by simp [hz.1, ha.1, hm]
        rw [this, show fz ++ (fa ++ (mid ++ (fb ++ tail))) = (fz ++ (fa ++ mid)) ++ (fb ++ tail) by simp, List.drop_left]
      have h50 : (fz ++ (fa ++ (mid ++ (fb ++ tail))))[50]? = fb[6]? := by
        have : ((fz ++ (fa ++ (mid ++ (fb ++ tail)))).drop 44)[6]? = fb[6]? := by
          rw [hdrop, List.getElem?_append_left (by rw [hb.1]; omega)]
        rw [← this, List.getElem?_drop]
      refine ⟨h2, h1, ?_, by rw [h50]; exact h6, k1, k2, ?_, g1, g2, g3, g4, g5⟩
      · simp [hz.1, ha.1, hm, hb.1]; omega
      · rw [hdrop]
        refine atof_col hb fun c hc => ?_
        rcases ht c hc with rfl | rfl <;> decide
  | blank l =>
      obtain ⟨h1, h2, fz, fa, mid, z, a, rfl, hz, ha, hm, hl, g1, g2⟩ := this
      obtain ⟨k1, k2⟩ := hcut fz fa _ hz ha hm
      refine ⟨h2, h1, by simp [hz.1, ha.1]; omega, by rw [k1]; exact g1, ?_⟩
      rw [k2]
      refine g2.imp_left fun h => ?_
      rw [List.getElem?_append_right (by rw [hz.1]; omega), List.getElem?_append_right (by rw [hz.1, ha.1]; omega), hz.1, ha.1]
      exact h

theorem printed_item {x : LevelItem ℚ} (h : PrintedItem x) : x.Good libConv := by
  cases x with
  | comment l => exact h
  | nucleus hd z ls =>
      obtain ⟨⟨h1, h2, nm, fz, fn, tail, rfl, hn, hz, hk⟩, h3⟩ := h
      refine ⟨⟨h1, h2, by simp [hn, hz.1]; omega, ?_, ?_⟩, fun r hr => ?_⟩
      · rw [cols_skip _ _ _ _ (by omega), hn, cols_here _ _ hz.1]
        exact atoi_col' hz
      · rw [cols_skip _ _ _ _ (by omega), hn, cols_skip _ _ _ _ (by rw [hz.1]), hz.1, cols_here _ _ hk.1]
        exact atoi_col' hk
      · obtain ⟨⟨g1, e, s, p, hl, k, t, g2, g3, g4, g5, g6, g7⟩, g8⟩ := h3 r hr
        refine ⟨⟨g1, ?_, ?_, ?_, ?_, ?_, ?_⟩, g8.imp fun l g hg => ?_⟩
        · rw [g2]; simp [g3.1, g4.1, g5.1, g6.1]; omega
        · rw [g2, cols_here _ _ g3.1]; exact atof_col' g3
        · rw [g2, cols_skip _ _ _ _ (by rw [g3.1]), g3.1, cols_here _ _ g4.1]
          show ⌊2 * CNum.atof s⌋ = _
          rw [atof_col' g4, show (2 : ℚ) * (r.raw.spin2 / 2) = r.raw.spin2 by ring, Int.floor_intCast]
        · rw [g2, cols_skip _ _ _ _ (by rw [g3.1]; omega), g3.1, cols_skip _ _ _ _ (by rw [g4.1]), g4.1, cols_here _ _ g5.1]
          exact atoi_col' g5
        · rw [g2, cols_skip _ _ _ _ (by rw [g3.1]; omega), g3.1, cols_skip _ _ _ _ (by rw [g4.1]; omega), g4.1,
            cols_skip _ _ _ _ (by rw [g5.1]), g5.1, cols_here _ _ g6.1]
          exact atof_col' g6
        · rw [g2, cols_skip _ _ _ _ (by rw [g3.1]; omega), g3.1, cols_skip _ _ _ _ (by rw [g4.1]; omega), g4.1,
            cols_skip _ _ _ _ (by rw [g5.1]; omega), g5.1, cols_skip _ _ _ _ (by rw [g6.1]), g6.1, cols_here _ _ g7.1]
          exact atoi_col' g7
        · obtain ⟨k1, f, p, c, t, rfl, k2, k3, k4⟩ := hg
          refine ⟨k1, by simp [k2.1, k3.1]; omega, ?_, ?_, ?_⟩
          · rw [cols_here _ _ k2.1]; exact atoi_col' k2
          · rw [cols_skip _ _ _ _ (by rw [k2.1]), k2.1, cols_here _ _ k3.1]; exact atof_col' k3
          · rw [cols_skip _ _ _ _ (by rw [k2.1]; omega), k2.1, cols_skip _ _ _ _ (by rw [k3.1]), k3.1, cols_here _ _ k4.1]
            exact atof_col' k4

/-- **C141** (levels). -/
theorem C141_levels (mb ml mn : Nat) (hmb : 2 ≤ mb) (f : List (LevelItem ℚ)) (hf : ∀ x ∈ f, PrintedItem x)
    (hn : (levelRecords f).length ≤ mn) (hl : ∀ e ∈ levelRecords f, e.2.length < ml) (name : List Char)
    (cwd dir : Option (List Char)) (ht : TextOf cwd dir (levelFile f)) (fuel : Nat) (hfuel : f.length < fuel)
    (pre post : List (LevelItem ℚ)) (hd : List Char) (z : Int) (ls : List (LevelRec ℚ))
    (hsplit : f = pre ++ .nucleus hd z ls :: post) (hfirst : ∀ e ∈ levelRecords pre, e.1 ≠ z) :
    ∃ db lv, readText libConv mb ml mn fuel name cwd dir = .ok db ∧ lookup db z = .ok lv ∧
      NucleusFrom mb (ls.map LevelRec.raw) lv :=
  C106_levels libConv mb ml mn hmb f (fun x hx => printed_item (hf x hx)) hn hl name cwd dir ht fuel hfuel pre post hd z ls hsplit
    hfirst

/-- **C141** (level density parameters). -/
theorem C141_parameters (size : Nat) (f : List (KckItem ℚ)) (hf : ∀ x ∈ f, PrintedKck size x)
    (cwd dir : Option (List Char)) (ht : TextOf cwd dir (withNewlines (f.map KckItem.text))) :
    ∃ tab, readKck libConv size cwd dir = .ok tab ∧ tab.length = size ∧
      ∀ z : Nat, z < size → tab[z]? = some ((lastOf (f.flatMap KckItem.rows) z).getD (List.replicate 6 0)) := by
  refine C107_parameters libConv size f (fun x hx => ?_) cwd dir ht
  have := hf x hx
  cases x with
  | comment l => exact this
  | row l za v =>
      obtain ⟨h1, h2, h3, h4, fz, fa, f1, f2, f3, f4, f5, f6, f7, f8, tail, z, a, pr, sh, em, pa, t, e0, t', e0', rfl, hz, ha, rfl,
        g1, g2, g3, g4, g5, g6, g7, g8, hv⟩ := this
      have k1 : CNum.atoi (cols (fz ++ (fa ++ (f1 ++ (f2 ++ (f3 ++ (f4 ++ (f5 ++ (f6 ++ (f7 ++ (f8 ++ tail)))))))))) 0 5) = z := by
        rw [cols_here _ _ hz.1]; exact atoi_col' hz
      have k2 : CNum.atoi (cols (fz ++ (fa ++ (f1 ++ (f2 ++ (f3 ++ (f4 ++ (f5 ++ (f6 ++ (f7 ++ (f8 ++ tail)))))))))) 5 6) = a := by
        rw [cols_skip _ _ _ _ (by rw [hz.1]), hz.1, cols_here _ _ ha.1]; exact atoi_col' ha
      have step : ∀ (r : List Char) (n m : Nat), 11 ≤ n → cols (fz ++ (fa ++ r)) n m = cols r (n - 11) m := by
        intro r n m h
        rw [cols_skip _ _ _ _ (by rw [hz.1]; omega), hz.1, cols_skip _ _ _ _ (by rw [ha.1]; omega), ha.1]
        congr 1
      have c1 := atof_col' g1
      have c2 := atof_col' g2
      have c3 := atof_col' g3
      have c4 := atof_col' g4
      have c5 := atof_col' g5
      have c6 := atof_col' g6
      have c7 := atof_col' g7
      have c8 := atof_col' g8
      have sk : ∀ {n : Nat} {g : List Char} {x : ℚ} (hg : NumCol n g x) (r : List Char) (k m : Nat), n ≤ k →
          cols (g ++ r) k m = cols r (k - n) m := by
        intro n g x hg r k m h
        rw [cols_skip _ _ _ _ (by rw [hg.1]; omega), hg.1]
      refine ⟨⟨h1, h2, ?_, ?_, ?_⟩, h3, h4⟩
      · simp [hz.1, ha.1, g1.1, g2.1, g3.1, g4.1, g5.1, g6.1, g7.1]; omega
      · show 1000 * CNum.atoi _ + CNum.atoi _ = _
        rw [k1, k2]
      · show (0 < CNum.atof _ ∧ v = [CNum.atof _, CNum.atof _, CNum.atof _, CNum.atof _, CNum.atof _, CNum.atof _]) ∨
          (CNum.atof _ ≤ 0 ∧ v = [CNum.atof _, CNum.atof _, CNum.atof _, CNum.atof _, CNum.atof _, CNum.atof _])
        rw [step _ 37 _ (by omega), step _ 11 _ (by omega), step _ 24 _ (by omega), step _ 47 _ (by omega), step _ 57 _ (by omega),
          step _ 67 _ (by omega), step _ 77 _ (by omega), step _ 87 _ (by omega)]
        simp only [Nat.reduceSub]
        rw [cols_here _ _ g1.1, sk g1 _ 13 _ (by omega), sk g1 _ 26 _ (by omega), sk g1 _ 36 _ (by omega), sk g1 _ 46 _ (by omega),
          sk g1 _ 56 _ (by omega), sk g1 _ 66 _ (by omega), sk g1 _ 76 _ (by omega)]
        simp only [Nat.reduceSub]
        rw [cols_here _ _ g2.1, sk g2 _ 13 _ (by omega), sk g2 _ 23 _ (by omega), sk g2 _ 33 _ (by omega), sk g2 _ 43 _ (by omega),
          sk g2 _ 53 _ (by omega), sk g2 _ 63 _ (by omega)]
        simp only [Nat.reduceSub]
        rw [cols_here _ _ g3.1, sk g3 _ 10 _ (by omega), sk g3 _ 20 _ (by omega), sk g3 _ 30 _ (by omega), sk g3 _ 40 _ (by omega),
          sk g3 _ 50 _ (by omega)]
        simp only [Nat.reduceSub]
        rw [cols_here _ _ g4.1, sk g4 _ 10 _ (by omega), sk g4 _ 20 _ (by omega), sk g4 _ 30 _ (by omega), sk g4 _ 40 _ (by omega)]
        simp only [Nat.reduceSub]
        rw [cols_here _ _ g5.1, sk g5 _ 10 _ (by omega), sk g5 _ 20 _ (by omega), sk g5 _ 30 _ (by omega)]
        simp only [Nat.reduceSub]
        rw [cols_here _ _ g6.1, sk g6 _ 10 _ (by omega), sk g6 _ 20 _ (by omega)]
        simp only [Nat.reduceSub]
        rw [cols_here _ _ g7.1, sk g7 _ 10 _ (by omega)]
        simp only [Nat.reduceSub]
        rw [cols_here _ _ g8.1, c1, c2, c3, c4, c5, c6, c7, c8]
        split_ifs at hv with h0
        · exact Or.inl ⟨h0, hv⟩
        · exact Or.inr ⟨not_lt.1 h0, hv⟩

theorem printed_rta {numA : Nat} {x : RtaItem ℚ} (h : PrintedRta numA x) : x.Good libConv numA := by
  cases x with
  | comment l => exact h
  | blank l => exact h
  | row r =>
      obtain ⟨h1, h2, h3, h4, h5, fz, fa, fb, hl, hz, ha, hb, hh, hw⟩ := h
      have hd18 : r.line.drop 18 = (List.intersperse [' '] r.words).flatten := by
        rw [hl, show fz ++ (fa ++ (fb ++ ' ' :: (List.intersperse [' '] r.words).flatten)) =
          (fz ++ (fa ++ (fb ++ [' ']))) ++ (List.intersperse [' '] r.words).flatten by simp]
        exact List.drop_left' (by simp [hz.1, ha.1, hb.1])
      refine ⟨h1, h2, h3, ?_, ?_, ?_, ?_, h4, h5, ?_, ?_, [], by rw [hd18, List.append_nil], Or.inl rfl⟩
      · rw [hl]; simp [hz.1, ha.1, hb.1]; omega
      · rw [hl, cols_here _ _ hz.1]; exact atoi_col' hz
      · rw [hl, cols_skip _ _ _ _ (by rw [hz.1]), hz.1]
        obtain ⟨c, fb', rfl⟩ : ∃ c t, fb = c :: t := by
          cases fb with
          | nil => simp at hh
          | cons c t => exact ⟨c, t, rfl⟩
        simp only [List.head?_cons, Option.some.injEq] at hh
        subst hh
        unfold cols
        rw [Nat.sub_self, List.drop_zero, List.take_append, List.take_of_length_le (by rw [ha.1]; omega), ha.1]
        exact atoi_col ha (by simp; rfl)
      · rw [hl, cols_skip _ _ _ _ (by rw [hz.1]; omega), hz.1, cols_skip _ _ _ _ (by rw [ha.1]), ha.1]
        unfold cols
        rw [Nat.sub_self, List.drop_zero, List.take_append, List.take_of_length_le (by rw [hb.1]; omega), hb.1]
        exact atoi_col hb (by simp; rfl)
      · have key : ∀ {ws : List (List Char)} {vs : List ℚ}, List.Forall₂ (fun w x => ' ' ∉ w ∧ pyFloat w = .ok x) ws vs →
            ws.map CNum.atof = vs := by
          intro ws vs h
          induction h with
          | nil => rfl
          | cons h _ ih =>
              rw [List.map_cons, ih]
              congr 1
              simpa using C139_atof h.2 [] [] (by simp) (by simp [Ends])
        exact key hw
      · intro w hw'
        obtain ⟨i, hi, rfl⟩ := List.getElem_of_mem hw'
        exact (hw.get hi (by rw [← hw.length_eq]; exact hi)).1

/-- **C141** (temperature ratios). -/
theorem C141_ratio (numA : Nat) (f : List (RtaItem ℚ)) (hf : ∀ x ∈ f, PrintedRta numA x)
    (hten : (f.flatMap RtaItem.rows).length ≤ 10) (cwd dir : Option (List Char))
    (ht : TextOf cwd dir (withNewlines (f.map RtaItem.text))) (target : Int) (ah : Nat) (ha : ah < numA)
    (hin : ∃ r ∈ f.flatMap RtaItem.rows, |r.z| = target) :
    ∃ tab, readRta libConv numA cwd dir = .ok tab ∧ ratio tab target ah = .ok (ratioOf (f.flatMap RtaItem.rows) target ah) :=
  C107_ratio_partial libConv numA f (fun x hx => printed_rta (hf x hx)) hten cwd dir ht target ah ha (Or.inl hin)

/-- What `printf("%<n>d")` writes is such a column, if the number fits. -/
theorem C141_printed_int (n : Nat) (i : Int) (h : (fmtInt i).length ≤ n) :
    IntCol n (List.replicate (n - (fmtInt i).length) ' ' ++ fmtInt i) i :=
  ⟨by simp; omega, _, _, [], by rw [List.append_nil], fun _ hc => List.eq_of_mem_replicate hc, by simp, pyInt_fmtInt i⟩

/-- What `printf("%<n>.<d>f")` writes is such a column, if the number fits; its value is within half a unit of the last digit
of the number. -/
theorem C141_printed_fixed (n d : Nat) (hd : 0 < d) (x : ℚ) (h : (fmtFixed d x).length ≤ n) :
    ∃ y, NumCol n (List.replicate (n - (fmtFixed d x).length) ' ' ++ fmtFixed d x) y ∧ |y - x| ≤ 1 / 2 / 10 ^ d :=
  ⟨_, ⟨by simp; omega, _, _, [], by rw [List.append_nil], fun _ hc => List.eq_of_mem_replicate hc, by simp, pyFloat_fmtFixed d hd x⟩,
    fixedInt_err d x⟩

/-! ## Lines of the shipped files -/

private def cellA : MCell ℚ := ⟨"   1005".toList, "  32.892441".toList, 1005, 32892441 / 1000000⟩
private def cellB : MCell ℚ := ⟨"   9021".toList, "  -0.047600".toList, 9021, -476 / 10000⟩

private theorem col {f : List Char} (n k : Nat) (i : Int) (h : f.length = n ∧ (∀ c ∈ f.take k, c = ' ') ∧ pyInt (f.drop k) = .ok i) :
    IntCol n f i :=
  ⟨h.1, f.take k, f.drop k, [], by simp, h.2.1, by simp, h.2.2⟩

private theorem colN {f : List Char} (n k : Nat) (x : ℚ) (h : f.length = n ∧ (∀ c ∈ f.take k, c = ' ') ∧ pyFloat (f.drop k) = .ok x) :
    NumCol n f x :=
  ⟨h.1, f.take k, f.drop k, [], by simp, h.2.1, by simp, h.2.2⟩

/-- Two masses, the second one negative, from one line. -/
example : ∃ tab, readMasses CNum.atoi CNum.atof 140000 none (some "# Audi\n   1005  32.892441   9021  -0.047600\n".toList) = .ok tab ∧
    getMassExcess tab 1005 = .ok (32892441 / 1000000) ∧ getMassExcess tab 9021 = .ok (-476 / 10000) := by
  obtain ⟨tab, h, h1, -⟩ := C141_masses 140000 [.comment "# Audi".toList, .cells [cellA, cellB] []]
    (by
      intro l hl
      simp only [List.mem_cons, List.not_mem_nil, or_false] at hl
      rcases hl with rfl | rfl
      · exact ⟨rfl, by decide +kernel⟩
      · refine ⟨fun c hc => ?_, Or.inl rfl⟩
        simp only [List.mem_cons, List.not_mem_nil, or_false] at hc
        rcases hc with rfl | rfl
        · exact ⟨col 7 3 _ (by decide +kernel), by decide +kernel, colN 11 2 _ (by decide +kernel), by decide +kernel,
            by decide +kernel, by decide +kernel, by decide +kernel⟩
        · exact ⟨col 7 3 _ (by decide +kernel), by decide +kernel, colN 11 2 _ (by decide +kernel), by decide +kernel,
            by decide +kernel, by decide +kernel, by decide +kernel⟩)
    (by decide +kernel) none _ (Or.inr ⟨rfl, rfl⟩)
  have e : commentText ([MLine.comment "# Audi".toList, .cells [cellA, cellB] []].map MLine.text) =
      "# Audi\n   1005  32.892441   9021  -0.047600\n".toList := by decide +kernel
  rw [e] at h
  exact ⟨tab, h, h1 cellA (by simp [MLine.data]) (by decide +kernel), h1 cellB (by simp [MLine.data]) (by decide +kernel)⟩

/-- The shipped line of barium-141. -/
private def baP : List Char := "  56 141 Ba 2   -79.730   -79.290    -2.160   0.116           0.070   0.012".toList

example : PrintedDef 140000 (.entry baP 56 141 (116 / 1000)) := by
  refine ⟨by decide +kernel, by decide +kernel, baP.take 4, (baP.drop 4).take 4, (baP.drop 8).take 36, (baP.drop 44).take 8, baP.drop 52,
    by decide +kernel, col 4 2 _ (by decide +kernel), col 4 1 _ (by decide +kernel), by decide +kernel, by decide +kernel,
    ⟨by decide +kernel, "  ".toList, "0.116".toList, " ".toList, by decide +kernel, by decide +kernel, by decide +kernel,
      by decide +kernel⟩, by decide +kernel, by decide +kernel, by norm_num, by norm_num, by norm_num, by norm_num, by norm_num⟩

/-- A ground state and a level at 0.1 MeV with spin 5/2, negative parity and one transition. -/
private def headP : List Char := "  3Li   3003    2".toList
private def lev0P : List Char := "  0.000000  1.5  1    -1.00e+00  0".toList
private def lev1P : List Char := "  0.100000  2.5 -1     1.00e-09  1 comment".toList
private def gamP : List Char := "  0    0.750   1.2e-01".toList

private def fileP : List (LevelItem ℚ) := [.comment "# levels".toList, .nucleus headP 3003
  [⟨lev0P, [], ⟨0, 3, 1, -1, []⟩⟩, ⟨lev1P, [gamP], ⟨1 / 10, 5, -1, 1 / 1000000000, [⟨0, 3 / 4, 12 / 100⟩]⟩⟩]]

private theorem fileP_printed : ∀ x ∈ fileP, PrintedItem x := by
  intro x hx
  simp only [fileP, List.mem_cons, List.not_mem_nil, or_false] at hx
  rcases hx with rfl | rfl
  · exact ⟨by decide +kernel, by decide +kernel⟩
  · refine ⟨⟨by decide +kernel, by decide +kernel, headP.take 6, (headP.drop 6).take 6, (headP.drop 12).take 5, headP.drop 17,
      by decide +kernel, by decide +kernel, col 6 2 _ (by decide +kernel), col 5 4 _ (by decide +kernel)⟩, ?_⟩
    intro r hr
    simp only [List.mem_cons, List.not_mem_nil, or_false] at hr
    rcases hr with rfl | rfl
    · refine ⟨⟨by decide +kernel, lev0P.take 10, (lev0P.drop 10).take 5, (lev0P.drop 15).take 3, (lev0P.drop 18).take 13,
        (lev0P.drop 31).take 3, lev0P.drop 34, by decide +kernel, colN 10 2 _ (by decide +kernel), colN 5 2 _ (by decide +kernel),
        col 3 2 _ (by decide +kernel), colN 13 4 _ (by decide +kernel), col 3 2 _ (by decide +kernel)⟩, List.Forall₂.nil⟩
    · refine ⟨⟨by decide +kernel, lev1P.take 10, (lev1P.drop 10).take 5, (lev1P.drop 15).take 3, (lev1P.drop 18).take 13,
        (lev1P.drop 31).take 3, lev1P.drop 34, by decide +kernel, colN 10 2 _ (by decide +kernel), colN 5 2 _ (by decide +kernel),
        col 3 1 _ (by decide +kernel), colN 13 5 _ (by decide +kernel), col 3 2 _ (by decide +kernel)⟩,
        List.Forall₂.cons ⟨by decide +kernel, gamP.take 3, (gamP.drop 3).take 9, (gamP.drop 12).take 10, gamP.drop 22,
          by decide +kernel, col 3 2 _ (by decide +kernel), colN 9 4 _ (by decide +kernel), colN 10 3 _ (by decide +kernel)⟩
          List.Forall₂.nil⟩

example : ∃ db lv, readText libConv 61 200 3500 3 [] none (some (levelFile fileP)) = .ok db ∧ lookup db 3003 = .ok lv ∧
    NucleusFrom 61 [⟨0, 3, 1, -1, []⟩, ⟨1 / 10, 5, -1, 1 / 1000000000, [⟨0, 3 / 4, 12 / 100⟩]⟩] lv :=
  C141_levels 61 200 3500 (by omega) fileP fileP_printed (by decide) (by decide +kernel) [] none _ (Or.inr ⟨rfl, rfl⟩) 3 (by decide)
    [.comment "# levels".toList] [] headP 3003 _ rfl (by simp [levelRecords, LevelItem.records])

/-- The shipped parameters of tritium, with matching energy zero, so that the second pair counts. -/
private def kckP : List Char :=
  "    1     3  2.72587e+00 -2.12300e+00   0.00000   0.37922   0.00000   0.00000  19.41022 -24.50472".toList

private theorem kckP_printed : PrintedKck 140000 (.row kckP 1003
    [272587 / 100000, -2123 / 1000, 0, 37922 / 100000, 1941022 / 100000, -2450472 / 100000]) :=
  ⟨by decide +kernel, by decide +kernel, by decide, by decide, kckP.take 5, (kckP.drop 5).take 6, (kckP.drop 11).take 13,
    (kckP.drop 24).take 13, (kckP.drop 37).take 10, (kckP.drop 47).take 10, (kckP.drop 57).take 10, (kckP.drop 67).take 10,
    (kckP.drop 77).take 10, (kckP.drop 87).take 10, kckP.drop 97, 1, 3, 272587 / 100000, -2123 / 1000, 0, 37922 / 100000, 0, 0,
    1941022 / 100000, -2450472 / 100000, by decide +kernel, col 5 4 _ (by decide +kernel), col 6 5 _ (by decide +kernel),
    by decide, colN 13 2 _ (by decide +kernel), colN 13 1 _ (by decide +kernel), colN 10 3 _ (by decide +kernel),
    colN 10 3 _ (by decide +kernel), colN 10 3 _ (by decide +kernel), colN 10 3 _ (by decide +kernel),
    colN 10 2 _ (by decide +kernel), colN 10 1 _ (by decide +kernel), by rw [if_neg (by norm_num)]⟩

example : ∃ tab, readKck libConv 140000 (some (withNewlines [kckP])) none = .ok tab ∧
    tab[1003]? = some ([272587 / 100000, -2123 / 1000, 0, 37922 / 100000, 1941022 / 100000, -2450472 / 100000] : List ℚ) := by
  obtain ⟨tab, h1, -, h2⟩ := C141_parameters 140000 [.row kckP 1003 _] (by simpa using kckP_printed) (some (withNewlines [kckP])) none
    (Or.inl rfl)
  exact ⟨tab, h1, h2 1003 (by norm_num)⟩

/-- The start of the shipped row of uranium-235. -/
private def rtaP : RtaRow ℚ := ⟨" 92235  118  120  1.000 1.096 1.191".toList, 92235, 118,
  ["1.000".toList, "1.096".toList, "1.191".toList], [1, 1096 / 1000, 1191 / 1000]⟩

private theorem rtaP_printed : PrintedRta 300 (.row rtaP) :=
  ⟨by decide +kernel, by decide +kernel, by decide +kernel, by decide +kernel, by decide +kernel, " 92235 ".toList, " 118 ".toList,
    " 120 ".toList, by decide +kernel,
    ⟨rfl, " ".toList, "92235".toList, " ".toList, rfl, by decide, by decide, by decide +kernel⟩,
    ⟨rfl, " ".toList, "118".toList, " ".toList, rfl, by decide, by decide, by decide +kernel⟩,
    ⟨rfl, " ".toList, "120".toList, " ".toList, rfl, by decide, by decide, by decide +kernel⟩, rfl,
    List.Forall₂.cons (by decide +kernel) (List.Forall₂.cons (by decide +kernel) (List.Forall₂.cons (by decide +kernel) List.Forall₂.nil))⟩

example : ∃ tab, readRta libConv 300 (some (withNewlines [rtaP.line])) none = .ok tab ∧
    ratio tab 92235 (119 : Nat) = .ok (1096 / 1000) := by
  obtain ⟨tab, h1, h2⟩ := C141_ratio 300 [.row rtaP] (by simpa using rtaP_printed) (by decide) (some (withNewlines [rtaP.line])) none
    (Or.inl rfl) 92235 119 (by norm_num) ⟨rtaP, by simp [RtaItem.rows], by decide +kernel⟩
  refine ⟨tab, h1, h2.trans ?_⟩
  decide +kernel

end CGMF.Props
