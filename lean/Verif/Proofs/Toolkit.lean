import Verif.Spec.Toolkit
import Verif.Tactics
import Mathlib.Algebra.BigOperators.Group.List.Basic

/-! # Lemmas about the analysis of history files -/

namespace CGMF.Toolkit

open CGMF.Parser

theorem evens_flat {β : Type} (f : PyFrag → β) (ps : List (PyFrag × PyFrag)) :
    evens ((flat ps).map f) = ps.map (fun p => f p.1) ∧ odds ((flat ps).map f) = ps.map (fun p => f p.2) := by
  induction ps with
  | nil => exact ⟨rfl, rfl⟩
  | cons p ps ih =>
      have : flat (p :: ps) = p.1 :: p.2 :: flat ps := rfl
      rw [this]
      simp [evens, odds, ih.1, ih.2]

theorem flat_length (ps : List (PyFrag × PyFrag)) : (flat ps).length = 2 * ps.length := by
  induction ps with
  | nil => rfl
  | cons p ps ih =>
      have : flat (p :: ps) = p.1 :: p.2 :: flat ps := rfl
      rw [this]; simp [ih]; omega

theorem events_flat (ps : List (PyFrag × PyFrag)) : numberEvents (flat ps) = ps.length := by
  unfold numberEvents; rw [flat_length]; omega

theorem zipWith_map_same {α β γ δ : Type} (f : β → γ → δ) (g : α → β) (h : α → γ) (l : List α) :
    List.zipWith f (l.map g) (l.map h) = l.map fun x => f (g x) (h x) := by
  induction l with
  | nil => rfl
  | cons a l ih => simp [ih]

theorem bcast_map {α β γ δ : Type} (f : β → γ → δ) (g : α → β) (h : α → γ) (l : List α) :
    bcast f (l.map g) (l.map h) = .ok (l.map fun x => f (g x) (h x)) := by
  unfold bcast
  rw [if_pos (by simp), zipWith_map_same]

theorem total_flat (f : PyFrag → Int) (ps : List (PyFrag × PyFrag)) :
    total ((flat ps).map f) = .ok (ps.map fun p => f p.1 + f p.2) := by
  unfold total
  rw [(evens_flat f ps).1, (evens_flat f ps).2, bcast_map]

theorem totals_flat (ps : List (PyFrag × PyFrag)) :
    neutronTotals (flat ps) = .ok (ps.map fun p => p.1.nn + p.2.nn + p.2.npn) := by
  unfold neutronTotals nus preNu
  rw [total_flat, (evens_flat (fun f => f.npn) ps).2]
  simp only [Res.bind]
  rw [bcast_map]

theorem photonCut_flat (eth : ℚ) (ps : List (PyFrag × PyFrag)) :
    photonCut eth (flat ps) = .ok (ps.map fun p => atLeast eth (p.1.phot.map (·.e) ++ p.2.phot.map (·.e))) := by
  unfold photonCut gElab
  rw [(evens_flat _ ps).1, (evens_flat _ ps).2, bcast_map]
  simp [Res.bind]

theorem atLeast_append (eth : ℚ) (a b : List ℚ) : atLeast eth (a ++ b) = atLeast eth a + atLeast eth b := by
  simp [atLeast]

theorem atLeast_nonneg (eth : ℚ) (a : List ℚ) : 0 ≤ atLeast eth a := by unfold atLeast; omega

theorem ind_sum (g : Nat → ℚ) (n : Nat) : ∀ m : Nat,
    ((List.range m).map fun i : Nat => if n = i then g i else 0).sum = if n < m then g n else 0 := by
  intro m
  induction m with
  | zero => simp
  | succ m ih =>
      rw [List.range_succ, List.map_append, List.sum_append, ih]
      simp only [List.map_cons, List.map_nil, List.sum_cons, List.sum_nil, add_zero]
      by_cases h1 : n < m
      · rw [if_pos h1, if_neg (by omega), if_pos (by omega), add_zero]
      · by_cases h2 : n = m
        · rw [if_neg h1, if_pos h2, if_pos (by omega), h2, zero_add]
        · rw [if_neg h1, if_neg h2, if_neg (by omega), add_zero]

/-- Sorting values into counts loses nothing. -/
theorem count_sum (g : Nat → ℚ) (m : Nat) : ∀ (tot : List Int), (∀ t ∈ tot, 0 ≤ t ∧ t < m) →
    ((List.range m).map fun i : Nat => g i * ((tot.filter fun t => decide (t = (i : Int))).length : ℚ)).sum
      = (tot.map fun t => g t.toNat).sum := by
  intro tot
  induction tot with
  | nil => intro _; simp
  | cons x tot ih =>
      intro h
      have hx := h x (by simp)
      have ih := ih (fun t ht => h t (by simp [ht]))
      have hstep : ∀ i : Nat, g i * (((x :: tot).filter fun t => decide (t = (i : Int))).length : ℚ)
          = (if x.toNat = i then g i else 0) + g i * ((tot.filter fun t => decide (t = (i : Int))).length : ℚ) := by
        intro i
        rw [List.filter_cons]
        by_cases hi : x = (i : Int)
        · have : x.toNat = i := by omega
          simp [hi]; ring
        · have : x.toNat ≠ i := by omega
          simp [hi, this]
      simp only [hstep]
      rw [List.sum_map_add, ih]
      have : ((List.range m).map fun i : Nat => if x.toNat = i then g i else 0).sum = g x.toNat := by
        rw [ind_sum, if_pos (by omega)]
      rw [this]; simp

theorem le_foldl_max : ∀ (l : List Int) (x : Int), x ≤ l.foldl max x ∧ ∀ y ∈ l, y ≤ l.foldl max x := by
  intro l
  induction l with
  | nil => intro x; simp
  | cons a l ih =>
      intro x
      obtain ⟨h1, h2⟩ := ih (max x a)
      refine ⟨le_trans (le_max_left x a) h1, ?_⟩
      intro y hy
      rcases List.mem_cons.mp hy with rfl | hy
      · exact le_trans (le_max_right x y) h1
      · exact h2 y hy

theorem foldl_max_mem : ∀ (l : List Int) (x : Int), l.foldl max x ∈ x :: l := by
  intro l
  induction l with
  | nil => intro x; simp
  | cons a l ih =>
      intro x
      have := ih (max x a)
      rw [List.foldl_cons]
      rcases List.mem_cons.mp this with h | h
      · rw [h]
        rcases max_choice x a with h' | h' <;> rw [h'] <;> simp
      · simp [h]

theorem foldl_min_le : ∀ (l : List Int) (x : Int), l.foldl min x ≤ x ∧ ∀ y ∈ l, l.foldl min x ≤ y := by
  intro l
  induction l with
  | nil => intro x; simp
  | cons a l ih =>
      intro x
      obtain ⟨h1, h2⟩ := ih (min x a)
      refine ⟨le_trans h1 (min_le_left x a), ?_⟩
      intro y hy
      rcases List.mem_cons.mp hy with rfl | hy
      · exact le_trans h1 (min_le_right x y)
      · exact h2 y hy

theorem maxI_spec {l : List Int} (h : l ≠ []) : ∃ m, maxI l = .ok m ∧ m ∈ l ∧ ∀ y ∈ l, y ≤ m := by
  match l, h with
  | x :: l, _ =>
      refine ⟨l.foldl max x, rfl, foldl_max_mem l x, ?_⟩
      intro y hy
      rcases List.mem_cons.mp hy with rfl | hy
      · exact (le_foldl_max l y).1
      · exact (le_foldl_max l x).2 y hy

theorem minI_spec {l : List Int} (h : l ≠ []) : ∃ m, minI l = .ok m ∧ ∀ y ∈ l, m ≤ y := by
  match l, h with
  | x :: l, _ =>
      refine ⟨l.foldl min x, rfl, ?_⟩
      intro y hy
      rcases List.mem_cons.mp hy with rfl | hy
      · exact (foldl_min_le l y).1
      · exact (foldl_min_le l x).2 y hy

theorem sum_map_div (l : List ℚ) (c : ℚ) : (l.map (· / c)).sum = l.sum / c := by
  induction l with
  | nil => simp
  | cons a l ih => simp [ih, add_div]

/-- A distribution over the values of a non-empty list of non-negative numbers. -/
theorem distribution_spec (tot : List Int) (h0 : ∀ t ∈ tot, 0 ≤ t) (hne : tot ≠ []) :
    ∃ ps, distribution tot tot.length = .ok ps ∧ ps.sum = 1 ∧
      (ps.zipIdx.map fun x => (x.2 : ℚ) * x.1).sum = (toQ tot).sum / tot.length ∧
      (∀ t ∈ tot, t < ps.length) ∧
      ∀ (i : Nat) (p : ℚ), ps[i]? = some p → p = ((tot.filter fun t => decide (t = (i : Int))).length : ℚ) / tot.length := by
  obtain ⟨m, hm, hmem, hle⟩ := maxI_spec hne
  have hm0 := h0 m hmem
  have hb : ∀ t ∈ tot, 0 ≤ t ∧ t < ((m + 1).toNat : Int) := fun t ht => ⟨h0 t ht, by have := hle t ht; omega⟩
  have hn : (tot.length : ℚ) ≠ 0 := by
    have : tot.length ≠ 0 := fun h => hne (List.length_eq_zero_iff.mp h)
    exact_mod_cast this
  unfold distribution
  rw [hm]
  simp only [Res.bind]
  rw [if_neg (by omega)]
  refine ⟨_, rfl, ?_, ?_, ?_, ?_⟩
  · have e : ((List.range (m + 1).toNat).map fun i : Nat =>
        ((tot.filter fun t => decide (t = (i : Int))).length : ℚ) / tot.length)
        = ((List.range (m + 1).toNat).map fun i : Nat =>
          1 * ((tot.filter fun t => decide (t = (i : Int))).length : ℚ)).map (· / (tot.length : ℚ)) := by
      rw [List.map_map]
      apply List.map_congr_left
      intro i _
      simp
    rw [e, sum_map_div, count_sum (fun _ => 1) _ tot hb]
    simp [hn]
  · have e : (((List.range (m + 1).toNat).map fun i : Nat =>
        ((tot.filter fun t => decide (t = (i : Int))).length : ℚ) / tot.length).zipIdx.map fun x => (x.2 : ℚ) * x.1)
        = ((List.range (m + 1).toNat).map fun i : Nat =>
          (i : ℚ) * ((tot.filter fun t => decide (t = (i : Int))).length : ℚ)).map (· / (tot.length : ℚ)) := by
      apply List.ext_getElem
      · simp
      · intro i h1 h2
        simp
        ring
    rw [e, sum_map_div, count_sum (fun i => (i : ℚ)) _ tot hb]
    congr 2
    unfold toQ
    apply List.map_congr_left
    intro t ht
    have := h0 t ht
    have h' : ((t.toNat : Int) : ℚ) = (t : ℚ) := by rw [Int.toNat_of_nonneg this]
    rw [← h', Int.cast_natCast]
  · intro t ht
    have := (hb t ht).2
    simp
    omega
  · intro i p hp
    rw [List.getElem?_map] at hp
    rcases Nat.lt_or_ge i (m + 1).toNat with h | h
    · rw [List.getElem?_range h] at hp
      simpa using hp.symm
    · rw [List.getElem?_eq_none (by simpa using h)] at hp
      simp at hp

/-! ## Selection and averages by mass -/

theorem select_run {α β : Type} {p : α → Bool} {as : List α} {q : List β} (h : as.length = q.length) :
    select p as q = .ok (((as.zip q).filter fun x => p x.1).map Prod.snd) := by
  unfold select; rw [if_pos h]

/-- Number of entries of mass `a` times the mean there is the sum there. -/
theorem meanAt_spec {as : List Int} {q : List ℚ} (h : as.length = q.length) (a : Int) :
    ∃ y, meanAt as q a = .ok y ∧
      ((as.filter fun x => decide (x = a)).length : ℚ) * y
        = (((as.zip q).filter fun x => decide (x.1 = a)).map Prod.snd).sum := by
  have hl : ((as.zip q).filter fun x => decide (x.1 = a)).length = (as.filter fun x => decide (x = a)).length := by
    have : as = (as.zip q).map Prod.fst := by rw [List.map_fst_zip (by omega)]
    conv_rhs => rw [this]
    rw [List.filter_map, List.length_map]
    rfl
  unfold meanAt
  rw [select_run h]
  simp only [Res.bind]
  by_cases hr : (((as.zip q).filter fun x => decide (x.1 = a)).map Prod.snd) = []
  · rw [if_pos hr]
    refine ⟨0, rfl, ?_⟩
    rw [hr]; simp
  · rw [if_neg hr]
    unfold mean
    rw [if_neg hr]
    refine ⟨_, rfl, ?_⟩
    rw [List.length_map, hl]
    have : ((as.filter fun x => decide (x = a)).length : ℚ) ≠ 0 := by
      rw [← hl]
      intro h0
      apply hr
      have : ((as.zip q).filter fun x => decide (x.1 = a)).length = 0 := by exact_mod_cast h0
      rw [List.length_eq_zero_iff.mp this]
      rfl
    rw [mul_div_assoc', mul_div_cancel_left₀ _ this]

/-- The rows for masses `lo` to `lo + n - 1`. -/
theorem massRows_spec {as : List Int} {q : List ℚ} (h : as.length = q.length) : ∀ (n : Nat) (lo : Int),
    ∃ rows, massRows as q lo n = .ok rows ∧ rows.length = n ∧
      (∀ (i : Nat) (r : Int × ℚ), rows[i]? = some r → r.1 = lo + i ∧ meanAt as q r.1 = .ok r.2) ∧
      (rows.map fun r => ((as.filter fun x => decide (x = r.1)).length : ℚ) * r.2).sum
        = (((as.zip q).filter fun x => decide (lo ≤ x.1 ∧ x.1 < lo + n)).map Prod.snd).sum := by
  intro n
  induction n with
  | zero =>
      intro lo
      refine ⟨[], rfl, rfl, by simp, ?_⟩
      rw [List.filter_eq_nil_iff.mpr (by intro x _; simp)]
      rfl
  | succ n ih =>
      intro lo
      obtain ⟨y, h1, h2⟩ := meanAt_spec h lo
      obtain ⟨rows, h3, h4, h5, h6⟩ := ih (lo + 1)
      refine ⟨(lo, y) :: rows, ?_, by simp [h4], ?_, ?_⟩
      · rw [massRows, h1]; simp only [Res.bind]; rw [h3]
      · intro i r hr
        cases i with
        | zero =>
            simp only [List.getElem?_cons_zero, Option.some.injEq] at hr
            subst hr
            exact ⟨by simp, h1⟩
        | succ i =>
            rw [List.getElem?_cons_succ] at hr
            obtain ⟨e1, e2⟩ := h5 i r hr
            exact ⟨by rw [e1]; push_cast; ring, e2⟩
      · rw [List.map_cons, List.sum_cons, h2, h6]
        generalize as.zip q = l
        clear h1 h2 h3 h4 h5 h6 ih h
        induction l with
        | nil => simp
        | cons x l ihl =>
            simp only [List.filter_cons, decide_eq_true_eq]
            by_cases e1 : x.1 = lo
            · rw [if_pos e1, if_neg (by omega), if_pos (by push_cast; omega)]
              simp only [List.map_cons, List.sum_cons]
              linarith
            · rw [if_neg e1]
              by_cases e2 : lo + 1 ≤ x.1 ∧ x.1 < lo + 1 + n
              · rw [if_pos e2, if_pos (by push_cast; omega)]
                simp only [List.map_cons, List.sum_cons]
                linarith
              · rw [if_neg e2, if_neg (by push_cast; omega)]
                exact ihl

/-! ## Pairs of neutrons -/

theorem inner_spec (ns : List Vec4) (x : Vec4) (j : Nat) (hj : ns[j]? = some x) : ∀ (m k : Nat), k + m = ns.length →
    inner ns j m k = .ok ((ns.drop k).map fun y => dot x y) := by
  intro m
  induction m with
  | zero => intro k hk; rw [List.drop_of_length_le (by omega)]; rfl
  | succ m ih =>
      intro k hk
      have hkl : k < ns.length := by omega
      have r1 : readAt ns (j : Int) = .ok x := by
        unfold readAt
        have hjl : j < ns.length := by
          by_contra hc
          rw [List.getElem?_eq_none (by omega)] at hj
          cases hj
        rw [dif_pos ⟨by omega, by simpa using hjl⟩]
        rw [List.getElem?_eq_getElem hjl] at hj
        simpa using hj
      have r2 : readAt ns (k : Int) = .ok ns[k] := by
        unfold readAt
        rw [dif_pos ⟨by omega, by simpa using hkl⟩]
        simp
      rw [inner, r1]
      simp only [Res.bind]
      rw [r2]
      simp only []
      rw [ih (k + 1) (by omega), List.drop_eq_getElem_cons hkl]
      rfl

theorem outer_spec (ns : List Vec4) : ∀ (m j : Nat), j + m = ns.length →
    ∃ r, outer ns ns.length m j = .ok r ∧
      r.Perm (((ns.drop j).map fun x => dot x x) ++ (distinct (ns.drop j)).map fun p => dot p.1 p.2) := by
  intro m
  induction m with
  | zero => intro j hj; rw [List.drop_of_length_le (by omega)]; exact ⟨[], rfl, List.Perm.refl _⟩
  | succ m ih =>
      intro j hj
      have hjl : j < ns.length := by omega
      obtain ⟨r, h1, h2⟩ := ih (j + 1) (by omega)
      refine ⟨((ns.drop j).map fun y => dot ns[j] y) ++ r, ?_, ?_⟩
      · rw [outer, inner_spec ns ns[j] j (List.getElem?_eq_getElem hjl) (ns.length - j) j (by omega)]
        simp only [Res.bind]
        rw [h1]
      · rw [List.drop_eq_getElem_cons hjl]
        simp only [List.map_cons, distinct, List.map_append, List.map_map, List.cons_append]
        apply List.Perm.cons
        have e : ((fun p : Vec4 × Vec4 => dot p.1 p.2) ∘ fun b => (ns[j], b)) = fun y => dot ns[j] y := rfl
        rw [e]
        refine (List.Perm.append_left _ h2).trans ?_
        rw [← List.append_assoc, ← List.append_assoc]
        exact List.Perm.append_right _ List.perm_append_comm

theorem distinct_length {α : Type} (l : List α) : 2 * (distinct l).length = l.length * (l.length - 1) := by
  induction l with
  | nil => rfl
  | cons a l ih =>
      simp only [distinct, List.length_append, List.length_map, List.length_cons]
      cases l with
      | nil => simp [distinct]
      | cons b l =>
          simp only [List.length_cons] at *
          rw [Nat.mul_add, ih]
          simp only [Nat.add_sub_cancel]
          ring

/-! ## Time -/

theorem select_id_mask (p : ℚ × ℚ → Bool) (l : List (ℚ × ℚ)) :
    ((((l.map p).zip (l.map Prod.fst)).filter fun x => id x.1).map Prod.snd).length = (l.filter p).length := by
  induction l with
  | nil => rfl
  | cons a l ih =>
      simp only [List.map_cons, List.zip_cons_cons, List.filter_cons, id]
      by_cases h : p a = true
      · rw [if_pos h, if_pos h]
        simp only [List.map_cons, List.length_cons]
        rw [← ih]; rfl
      · rw [if_neg h, if_neg h]
        exact ih

/-- Photons as pairs of age and energy. -/
theorem until_spec (l : List (ℚ × ℚ)) (eth t : ℚ) :
    until_ (l.map Prod.fst) (l.map Prod.snd) eth t =
      .ok ((l.filter fun x => decide (x.1 ≤ t) && decide (eth ≤ x.2)).length : ℚ) := by
  unfold until_
  rw [bcast_map]
  simp only [Res.bind]
  rw [select_run (by simp)]
  simp only []
  rw [select_id_mask (fun x => decide (x.1 ≤ t) && decide (eth ≤ x.2)) l]

theorem untilAll_spec (l : List (ℚ × ℚ)) (eth : ℚ) (n : Nat) : ∀ ts : List ℚ,
    untilAll (l.map Prod.fst) (l.map Prod.snd) eth n ts =
      .ok (ts.map fun t => ((l.filter fun x => decide (x.1 ≤ t) && decide (eth ≤ x.2)).length : ℚ) / n) := by
  intro ts
  induction ts with
  | nil => rfl
  | cons t ts ih =>
      rw [untilAll, until_spec]
      simp only [Res.bind]
      rw [ih]
      rfl

/-! ## Histograms -/

theorem histogram_sum (xs : List ℚ) : ∀ (es : List ℚ) (a b : ℚ), (a :: b :: es).Pairwise (· < ·) →
    (histogram xs (a :: b :: es)).sum =
      (xs.filter fun x => decide (a ≤ x) && decide (∀ z ∈ (b :: es).getLast?, x ≤ z)).length := by
  intro es
  induction es with
  | nil => intro a b _; simp [histogram]
  | cons c es ih =>
      intro a b h
      rw [histogram, List.sum_cons, ih b c (List.pairwise_cons.mp h).2]
      obtain ⟨z, hz⟩ : ∃ z, (c :: es).getLast? = some z := ⟨_, List.getLast?_eq_some_getLast (by simp)⟩
      have hz' : (b :: c :: es).getLast? = some z := by rw [List.getLast?_cons_cons]; exact hz
      have hab : a < b := (List.pairwise_cons.mp h).1 b (by simp)
      have hbz : b < z := (List.pairwise_cons.mp (List.pairwise_cons.mp h).2).1 z (List.mem_of_getLast? hz)
      rw [hz, hz']
      simp only [Option.mem_def, Option.some.injEq, forall_eq']
      clear ih
      induction xs with
      | nil => rfl
      | cons x xs ihx =>
          simp only [List.filter_cons, Bool.and_eq_true, decide_eq_true_eq]
          by_cases h1 : a ≤ x ∧ x < b
          · rw [if_pos h1, if_neg (fun h => absurd h.1 (not_le.mpr h1.2)),
              if_pos ⟨h1.1, (h1.2.trans hbz).le⟩, List.length_cons, List.length_cons]
            omega
          · rw [if_neg h1]
            by_cases h2 : b ≤ x ∧ x ≤ z
            · rw [if_pos h2, if_pos ⟨hab.le.trans h2.1, h2.2⟩, List.length_cons, List.length_cons]
              omega
            · rw [if_neg h2, if_neg]
              · exact ihx
              · rintro ⟨g1, g2⟩
                rcases lt_or_ge x b with g | g
                · exact h1 ⟨g1, g⟩
                · exact h2 ⟨g, g2⟩

end CGMF.Toolkit
