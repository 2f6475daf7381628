import Verif.Tactics
import Verif.Model.Data
import Verif.Model.Fragments
import Verif.Spec.Data
import Verif.Proofs.Data
import Mathlib.Algebra.Order.Ring.Rat

/-!
# C94, C95: the data files

What the readers of the mass, temperature, level density, deformation and other files make of a file, for every
file.
-/

namespace CGMF.Props

open CGMF CGMF.Data CGMF.Spec
open CGMF.Text (isWs)

set_option linter.unusedSectionVars false

variable {K : Type} [Field K] [LinearOrder K]

theorem given_open {cwd dir : Option (List Char)} {t : List Char} (h : Given cwd dir t) :
    openData cwd dir = ⟨t, false, false⟩ := by
  rcases h with rfl | ⟨rfl, rfl⟩ <;> rfl

/-! ## C94: what is read -/

/-- **C94** (temperatures).  A file of comment lines, a grid of `n` energies, one more line and rows for distinct nuclei is
read completely: the grid, the values of every row for its nucleus and zeros for every other nucleus. -/
theorem C94_temperatures (inum : List Char → Option Int) (num : List Char → Option K) (size n : Nat) (hn : 0 < n)
    (comments : List (List Char)) (hc : ∀ l ∈ comments, Comment l)
    (grid : List (Cell K)) (hgl : grid.length = n) (hgg : ∀ c ∈ grid, c.Good num)
    (b : List Char) (hlast : grid.getLast?.map Cell.gap = some (b ++ ['\n'])) (hb : '\n' ∉ b)
    (hnc : (grid.flatMap Cell.text).head? ≠ some '#')
    (line : List Char) (hl : '\n' ∉ line)
    (rows : List (DRow K)) (hne : rows ≠ []) (hr : ∀ r ∈ rows, r.Good inum num size n)
    (hd : rows.Pairwise fun a c => a.head.val ≠ c.head.val)
    (cwd dir : Option (List Char))
    (hf : Given cwd dir (commentText comments ++ (grid.flatMap Cell.text ++ (line ++ '\n' :: rows.flatMap DRow.text)))) :
    ∃ tab, (∃ N, ∀ fuel, N ≤ fuel → readTemperatures inum num size n fuel cwd dir = .ok (grid.map Cell.val, tab)) ∧
      tab.length = size ∧ (∀ r ∈ rows, tab[r.head.val.toNat]? = some r.vals) ∧
      ∀ z : Nat, z < size → (∀ r ∈ rows, r.head.val ≠ z) → tab[z]? = some (List.replicate n 0) := by
  have hg0 : grid ≠ [] := by rintro rfl; simp at hgl; omega
  refine ⟨putRows (List.replicate size (List.replicate n 0)) rows, ⟨comments.length + rows.length + 4, ?_⟩,
    by rw [putRows_length]; simp, ?_, ?_⟩
  · intro fuel hfuel
    obtain ⟨k, rfl⟩ : ∃ k, fuel = comments.length + (rows.length + 3 + k + 1) := ⟨fuel - (comments.length + rows.length + 4), by omega⟩
    unfold readTemperatures
    rw [given_open hf]
    simp only [Bool.false_eq_true, if_false]
    obtain ⟨str', hcount⟩ := count_comments (grid.flatMap Cell.text ++ (line ++ '\n' :: rows.flatMap DRow.text))
      comments (rows.length + 3 + k + 1) [] hc
    have hh : (grid.flatMap Cell.text ++ (line ++ '\n' :: rows.flatMap DRow.text)).head? ≠ some '#' := by
      cases hx : grid.flatMap Cell.text with
      | nil =>
        exfalso
        cases grid with
        | nil => exact hg0 rfl
        | cons c cs =>
          have := (hgg c (by simp)).1.1
          rw [List.flatMap_cons] at hx
          simp [Cell.text] at hx
          exact this hx.1
      | cons x xs => rw [hx] at hnc; simpa using hnc
    rw [hcount, count_stop _ hh]
    simp only [thenDo, Nat.zero_add]
    have hskip := skip_comments (grid.flatMap Cell.text ++ (line ++ '\n' :: rows.flatMap DRow.text)) comments [] hc
    generalize skipLines comments.length ⟨commentText comments ++
      (grid.flatMap Cell.text ++ (line ++ '\n' :: rows.flatMap DRow.text)), false, false⟩ [] = q at hskip
    obtain ⟨str, s1⟩ := q
    simp only at hskip
    subst hskip
    simp only
    obtain ⟨g1, -, hg1, hcells⟩ := readCells_good num grid 0 (List.replicate n 0) [] (line ++ '\n' :: rows.flatMap DRow.text)
      hgg hg0 (by simp) (by simp [hgl])
    rw [hlast] at hg1
    cases hg1
    rw [hgl, List.nil_append] at hcells
    rw [hcells]
    simp only [List.take_zero, List.nil_append]
    rw [show b ++ ['\n'] ++ (line ++ '\n' :: rows.flatMap DRow.text) = b ++ '\n' :: (line ++ '\n' :: rows.flatMap DRow.text) by
      simp, getline_line b _ hb]
    simp only
    rw [show comments.length + (rows.length + 3 + k + 1) = (comments.length + rows.length + 3 + k) + 1 by omega, tempLoop,
      getline_line line _ hl]
    simp only [Bool.false_eq_true, if_false]
    obtain ⟨z', hz⟩ := readRows_good inum num n hn rows (comments.length + 1 + k) none
      (List.replicate size (List.replicate n 0)) (by simpa using hr) (fun row h => by rw [List.eq_of_mem_replicate h]; simp) hne
    rw [show comments.length + rows.length + 3 + k = rows.length + 2 + (comments.length + 1 + k) by omega, hz]
    simp only [thenDo]
    rw [show rows.length + 2 + (comments.length + 1 + k) = (rows.length + 2 + (comments.length + k)) + 1 by omega, tempLoop,
      getline_bad _ rfl]
    simp
  · exact putRows_mem rows _ (fun r h => ⟨(hr r h).2.2.2.1, by simpa using (hr r h).2.2.2.2⟩) hd
  · intro z hz h
    rw [putRows_other z rows _ (fun r hrr => by
      have := h r hrr
      have := (hr r hrr).2.2.2.1
      omega), List.getElem?_replicate, if_pos hz]

/-- Shared part of the level density statements. -/
theorem ldp_read (inum : List Char → Option Int) (num : List Char → Option K) (size n : Nat) (hn : 0 < n)
    (comments : List (List Char)) (hc : ∀ l ∈ comments, Comment l) (first : List Char) (hf1 : '\n' ∉ first)
    (hf2 : first.head? ≠ some '#')
    (rows : List (DRow K)) (hne : rows ≠ []) (hr : ∀ r ∈ rows, r.Good inum num size n)
    (cwd dir : Option (List Char))
    (hf : Given cwd dir (commentText comments ++ (first ++ '\n' :: rows.flatMap DRow.text))) (fuel : Nat)
    (hfuel : comments.length + rows.length + 4 ≤ fuel) :
    readLDP inum num size n fuel cwd dir = .ok (putRows (List.replicate size (List.replicate n 0)) rows) := by
  obtain ⟨k, rfl⟩ : ∃ k, fuel = comments.length + (rows.length + 2 + (1 + k) + 1) :=
    ⟨fuel - (comments.length + rows.length + 4), by omega⟩
  unfold readLDP
  rw [given_open hf]
  simp only [Bool.false_eq_true, if_false]
  obtain ⟨str', h⟩ := ldpLoop_comments inum num n (first ++ '\n' :: rows.flatMap DRow.text) none
    (List.replicate size (List.replicate n 0)) comments (rows.length + 2 + (1 + k) + 1) [] hc
  rw [h, ldpLoop, getline_line first _ hf1]
  simp only [Bool.false_eq_true, if_false]
  rw [if_neg hf2]
  obtain ⟨z', hz⟩ := readRows_good inum num n hn rows (1 + k) none
    (List.replicate size (List.replicate n 0)) (by simpa using hr) (fun row h => by rw [List.eq_of_mem_replicate h]; simp) hne
  rw [hz]
  simp only [thenDo]
  rw [show rows.length + 2 + (1 + k) = (rows.length + 2 + k) + 1 by omega, ldpLoop, getline_bad _ rfl]
  simp

/-- **C94** (level densities, what holds).  Every row after the first line that is no comment is read. -/
theorem C94_partial (inum : List Char → Option Int) (num : List Char → Option K) (size n : Nat) (hn : 0 < n)
    (comments : List (List Char)) (hc : ∀ l ∈ comments, Comment l) (first : List Char) (hf1 : '\n' ∉ first)
    (hf2 : first.head? ≠ some '#')
    (rows : List (DRow K)) (hne : rows ≠ []) (hr : ∀ r ∈ rows, r.Good inum num size n)
    (hd : rows.Pairwise fun a c => a.head.val ≠ c.head.val)
    (cwd dir : Option (List Char))
    (hf : Given cwd dir (commentText comments ++ (first ++ '\n' :: rows.flatMap DRow.text))) :
    ∃ tab, (∃ N, ∀ fuel, N ≤ fuel → readLDP inum num size n fuel cwd dir = .ok tab) ∧
      tab.length = size ∧ (∀ r ∈ rows, tab[r.head.val.toNat]? = some r.vals) ∧
      ∀ z : Nat, z < size → (∀ r ∈ rows, r.head.val ≠ z) → tab[z]? = some (List.replicate n 0) := by
  refine ⟨_, ⟨_, fun fuel h => ldp_read inum num size n hn comments hc first hf1 hf2 rows hne hr cwd dir hf fuel h⟩,
    by rw [putRows_length]; simp, ?_, ?_⟩
  · exact putRows_mem rows _ (fun r h => ⟨(hr r h).2.2.2.1, by simpa using (hr r h).2.2.2.2⟩) hd
  · intro z hz h
    rw [putRows_other z rows _ (fun r hrr => by
      have := h r hrr
      have := (hr r hrr).2.2.2.1
      omega), List.getElem?_replicate, if_pos hz]

/-- **C94 is false** for the level density file: the first row is lost.  For every file of comment lines followed by a
row on a line of its own and further rows for other nuclei, the entry of the first nucleus stays zero, so that
`getLDP` uses its default for it. -/
theorem C94_refuted (inum : List Char → Option Int) (num : List Char → Option K) (size n : Nat) (hn : 0 < n)
    (comments : List (List Char)) (hc : ∀ l ∈ comments, Comment l) (r0 : DRow K) (line : List Char)
    (ht : r0.text = line ++ ['\n']) (hf1 : '\n' ∉ line) (hf2 : line.head? ≠ some '#')
    (rows : List (DRow K)) (hne : rows ≠ []) (hr : ∀ r ∈ r0 :: rows, r.Good inum num size n)
    (hd : (r0 :: rows).Pairwise fun a c => a.head.val ≠ c.head.val)
    (cwd dir : Option (List Char))
    (hf : Given cwd dir (commentText comments ++ (r0 :: rows).flatMap DRow.text)) :
    ∃ tab, (∃ N, ∀ fuel, N ≤ fuel → readLDP inum num size n fuel cwd dir = .ok tab) ∧
      tab[r0.head.val.toNat]? = some (List.replicate n 0) ∧
      ∀ (dflt : K) (grid : List K) (e : K), Frag.lookup dflt grid tab r0.head.val e =
        Frag.interpRow grid (List.replicate n dflt) e := by
  rw [List.pairwise_cons] at hd
  have h0 := hr r0 (by simp)
  have etext : (r0 :: rows).flatMap DRow.text = line ++ '\n' :: rows.flatMap DRow.text := by
    rw [List.flatMap_cons, ht]; simp
  rw [etext] at hf
  obtain ⟨tab, hN, hlen, -, hz⟩ := C94_partial inum num size n hn comments hc line hf1 hf2 rows hne
    (fun r h => hr r (by simp [h])) hd.2 cwd dir hf
  have hz0 := hz r0.head.val.toNat (by have := h0.2.2.2; omega) (fun r h => by
    have := hd.1 r h
    have := h0.2.2.2.1
    omega)
  refine ⟨tab, hN, hz0, ?_⟩
  intro dflt grid e
  obtain ⟨row, h1, h2⟩ := readAt_ok (xs := tab) h0.2.2.2.1 (by rw [hlen]; exact h0.2.2.2.2)
  rw [hz0] at h1
  cases h1
  unfold Frag.lookup
  rw [h2]
  show Frag.interpRow grid (Frag.rowOf dflt (List.replicate n 0)) e = _
  obtain ⟨m, rfl⟩ : ∃ m, n = m + 1 := ⟨n - 1, by omega⟩
  simp [Frag.rowOf, List.replicate_succ]

/-! ### Masses -/

theorem massLine_good (atoi : List Char → Int) (atof : List Char → K) (tail : List Char) (ht : tail = [] ∨ tail = ['\r']) :
    ∀ (cs : List (MCell K)) (tab : List K), (∀ c ∈ cs, MCell.Good atoi atof tab.length c) →
    massLine atoi atof (mline cs tail) tab = .ok (putCells tab cs)
  | [], tab, _ => by
    rcases ht with rfl | rfl <;> simp [mline, massLine, putCells]
  | c :: cs, tab, h => by
    obtain ⟨h7, h11, hb, hz, h0, h1, hv⟩ := h c (by simp)
    have ih := massLine_good atoi atof tail ht cs (tab.set c.zaid.toNat c.mass)
      (fun d hd => by rw [List.length_set]; exact h d (by simp [hd]))
    have hx : ∃ xs, c.zfield = ' ' :: xs := by
      cases hzf : c.zfield with
      | nil => rw [hzf] at hb; simp at hb
      | cons a as => rw [hzf] at hb; simp at hb; exact ⟨as, by rw [hb]⟩
    obtain ⟨xs, hxs⟩ := hx
    have e : mline (c :: cs) tail = c.zfield ++ (c.vfield ++ mline cs tail) := by simp [mline]
    have d7 : (c.zfield ++ (c.vfield ++ mline cs tail)).drop 7 = c.vfield ++ mline cs tail := by
      rw [← h7]; simp
    have t7 : (c.zfield ++ (c.vfield ++ mline cs tail)).take 7 = c.zfield := by rw [← h7]; simp
    have t18 : (c.vfield ++ mline cs tail).take 18 = c.vfield ++ (mline cs tail).take 7 := by
      rw [List.take_append, List.take_of_length_le (by omega), h11]
    have d18 : (c.zfield ++ (c.vfield ++ mline cs tail)).drop 18 = mline cs tail := by
      rw [show 18 = 7 + 11 by rfl, ← List.drop_drop, d7, ← h11]; simp
    have hval : atof (c.vfield ++ (mline cs tail).take 7) = c.mass := by
      apply hv
      cases cs with
      | nil => rcases ht with rfl | rfl <;> simp [mline]
      | cons d ds =>
        right; left
        have := (h d (by simp)).2.2.1
        cases hdf : d.zfield with
        | nil => rw [hdf] at this; simp at this
        | cons a as => rw [hdf] at this; simp at this; subst this; simp [mline, hdf]
    rw [e]
    have hlen : 18 ≤ (c.zfield ++ (c.vfield ++ mline cs tail)).length := by simp; omega
    rw [hxs] at d7 t7 d18 hlen ⊢
    rw [List.cons_append] at d7 t7 d18 hlen ⊢
    rw [massLine, if_neg (by decide), if_neg (by omega), d7, t18, hval, t7, ← hxs, hz, writeAt_ok _ h0 h1]
    simp only
    rw [if_neg (by omega), d18, ih]
    rfl

theorem mline_head (cs : List (MCell K)) (tail : List Char) (ht : tail = [] ∨ tail = ['\r'])
    (h : ∀ c ∈ cs, c.zfield.head? = some ' ') : (mline cs tail).head? ≠ some '#' := by
  cases cs with
  | nil => rcases ht with rfl | rfl <;> simp [mline]
  | cons c cs =>
    have := h c (by simp)
    cases hdf : c.zfield with
    | nil => rw [hdf] at this; simp at this
    | cons a as => rw [hdf] at this; simp at this; subst this; simp [mline, hdf]

theorem massLines_good (atoi : List Char → Int) (atof : List Char → K) : ∀ (ls : List (MLine K)) (tab : List K),
    (∀ l ∈ ls, MLine.Good atoi atof tab.length l) →
    massLines atoi atof (ls.map MLine.text) tab = .ok (putCells tab (ls.flatMap MLine.data))
  | [], tab, _ => rfl
  | .comment l :: ls, tab, h => by
    have hl : Comment l := h (.comment l) (by simp)
    have ih := massLines_good atoi atof ls tab (fun d hd => h d (by simp [hd]))
    show massLines atoi atof (l :: ls.map MLine.text) tab = .ok (putCells tab ([] ++ _))
    rw [massLines, if_pos hl.1, ih]
    rfl
  | .cells cs tail :: ls, tab, h => by
    have hl : MLine.Good atoi atof tab.length (.cells cs tail) := h (.cells cs tail) (by simp)
    have ih := massLines_good atoi atof ls (putCells tab cs)
      (fun d hd => by rw [putCells_length]; exact h d (by simp [hd]))
    show massLines atoi atof (mline cs tail :: ls.map MLine.text) tab = .ok (putCells tab (cs ++ _))
    rw [massLines, if_neg (mline_head cs tail hl.2 (fun c hc => (hl.1 c hc).1.2.2.1)),
      massLine_good atoi atof tail hl.2 cs tab (fun c hc => (hl.1 c hc).1)]
    simp only
    rw [ih, putCells_append]
    rfl

theorem lines_text : ∀ ls : List (List Char), (∀ l ∈ ls, '\n' ∉ l) → lines (commentText ls) = ls
  | [], _ => rfl
  | l :: ls, h => by
    have e : commentText (l :: ls) = l ++ '\n' :: commentText ls := by simp [commentText]
    unfold lines
    rw [e, linesAux_line l _ [] (h l (by simp))]
    have := lines_text ls (fun d hd => h d (by simp [hd]))
    unfold lines at this
    rw [this]
    rfl

/-- **C94** (masses).  For every well-formed mass file with distinct nuclei, `getMassExcess` returns the tabulated value
of every nucleus of the file whose mass excess is not zero and stops the program for every other nucleus. -/
theorem C94_masses (atoi : List Char → Int) (atof : List Char → K) (size : Nat) (ls : List (MLine K))
    (hg : ∀ l ∈ ls, MLine.Good atoi atof size l)
    (hd : (ls.flatMap MLine.data).Pairwise fun a b => a.zaid ≠ b.zaid) (cwd dir : Option (List Char))
    (hf : Given cwd dir (commentText (ls.map MLine.text))) :
    ∃ tab, readMasses atoi atof size cwd dir = .ok tab ∧
      (∀ c ∈ ls.flatMap MLine.data, c.mass ≠ 0 → getMassExcess tab c.zaid = .ok c.mass) ∧
      ∀ z : Int, 0 ≤ z → z < size → (∀ c ∈ ls.flatMap MLine.data, c.zaid = z → c.mass = 0) →
        getMassExcess tab z = .exit := by
  have hnl : ∀ l ∈ ls.map MLine.text, '\n' ∉ l := by
    intro l hl
    obtain ⟨m, hm, rfl⟩ := List.mem_map.mp hl
    have := hg m hm
    cases m with
    | comment l => exact this.2
    | cells cs tail =>
      simp only [MLine.text, mline, List.mem_append, List.mem_flatMap, not_or, not_exists, not_and]
      refine ⟨fun c hc => ⟨(this.1 c hc).2.1, (this.1 c hc).2.2⟩, ?_⟩
      rcases this.2 with rfl | rfl <;> decide
  have hb : ∀ c ∈ ls.flatMap MLine.data, 0 ≤ c.zaid ∧ c.zaid < size := by
    intro c hc
    obtain ⟨m, hm, hcm⟩ := List.mem_flatMap.mp hc
    have := hg m hm
    cases m with
    | comment l => simp [MLine.data] at hcm
    | cells cs tail => exact ⟨(this.1 c hcm).1.2.2.2.2.1, (this.1 c hcm).1.2.2.2.2.2.1⟩
  have hread : readMasses atoi atof size cwd dir = .ok (putCells (List.replicate size 0) (ls.flatMap MLine.data)) := by
    unfold readMasses
    rw [given_open hf]
    simp only [Bool.false_eq_true, if_false]
    rw [lines_text _ hnl]
    exact massLines_good atoi atof ls _ (by simpa using hg)
  refine ⟨_, hread, ?_, ?_⟩
  · intro c hc h0
    have hm := putCells_mem _ (List.replicate size (0 : K)) (by simpa using hb) hd c hc
    obtain ⟨x, hx, hxa⟩ := readAt_ok (xs := putCells (List.replicate size (0 : K)) (ls.flatMap MLine.data)) (hb c hc).1
      (by rw [putCells_length]; simpa using (hb c hc).2)
    rw [hm] at hx
    cases hx
    unfold getMassExcess
    rw [hxa]
    simp [h0]
  · intro z hz0 hz1 h
    obtain ⟨x, hx, hxa⟩ := readAt_ok (xs := putCells (List.replicate size (0 : K)) (ls.flatMap MLine.data)) hz0
      (by rw [putCells_length]; simpa using hz1)
    have : x = 0 := by
      by_cases hex : ∃ c ∈ ls.flatMap MLine.data, c.zaid = z
      · obtain ⟨c, hc, rfl⟩ := hex
        rw [putCells_mem _ _ (by simpa using hb) hd c hc] at hx
        cases hx
        exact h c hc rfl
      · rw [putCells_other _ _ _ (fun c hc => by
          have := (hb c hc).1
          intro he
          exact hex ⟨c, hc, by omega⟩), List.getElem?_replicate] at hx
        split_ifs at hx
        · cases hx; rfl
    unfold getMassExcess
    rw [hxa, this]
    simp

theorem same_of_zaid : ∀ cs : List (MCell K), cs.Pairwise (fun a b => a.zaid ≠ b.zaid) →
    ∀ a ∈ cs, ∀ b ∈ cs, a.zaid = b.zaid → a = b
  | [], _, a, ha, _, _, _ => by simp at ha
  | c :: cs, h, a, ha, b, hb, he => by
    rw [List.pairwise_cons] at h
    rcases List.mem_cons.mp ha with rfl | ha' <;> rcases List.mem_cons.mp hb with rfl | hb'
    · rfl
    · exact absurd he (h.1 b hb')
    · exact absurd he.symm (h.1 a ha')
    · exact same_of_zaid cs h.2 a ha' b hb' he

/-- **C94 is false** for masses too: a nucleus that a well-formed file lists with mass excess zero is reported as missing.
The shipped file lists carbon-12 (zero by definition) and 75203 so. -/
theorem C94_masses_refuted (atoi : List Char → Int) (atof : List Char → K) (size : Nat) (ls : List (MLine K))
    (hg : ∀ l ∈ ls, MLine.Good atoi atof size l)
    (hd : (ls.flatMap MLine.data).Pairwise fun a b => a.zaid ≠ b.zaid) (cwd dir : Option (List Char))
    (hf : Given cwd dir (commentText (ls.map MLine.text))) (c : MCell K) (hc : c ∈ ls.flatMap MLine.data)
    (h0 : c.mass = 0) :
    ∃ tab, readMasses atoi atof size cwd dir = .ok tab ∧ getMassExcess tab c.zaid = .exit := by
  obtain ⟨tab, h, -, hx⟩ := C94_masses atoi atof size ls hg hd cwd dir hf
  obtain ⟨m, hm, hcm⟩ := List.mem_flatMap.mp hc
  have hgm := hg m hm
  refine ⟨tab, h, hx c.zaid ?_ ?_ ?_⟩
  · cases m with
    | comment l => simp [MLine.data] at hcm
    | cells cs tail => exact (hgm.1 c hcm).1.2.2.2.2.1
  · cases m with
    | comment l => simp [MLine.data] at hcm
    | cells cs tail => exact (hgm.1 c hcm).1.2.2.2.2.2.1
  · intro d hdm hdz
    rw [same_of_zaid _ hd d hdm c hc hdz]; exact h0

/-! ### Deformations -/

theorem defLines_good (atoi : List Char → Int) (atof : List Char → K) : ∀ (ls : List (DLine K)) (tab : List K),
    (∀ l ∈ ls, DLine.Good atoi atof tab.length l) →
    defLines atoi atof (ls.map DLine.text) tab = .ok (putCells tab (ls.flatMap DLine.data))
  | [], tab, _ => rfl
  | .comment l :: ls, tab, h => by
    have hl : Comment l := h (.comment l) (by simp)
    have ih := defLines_good atoi atof ls tab (fun d hd => h d (by simp [hd]))
    show defLines atoi atof (l :: ls.map DLine.text) tab = .ok (putCells tab ([] ++ _))
    rw [defLines, if_pos hl.1, ih]
    rfl
  | .entry l z a b :: ls, tab, h => by
    obtain ⟨h1, -, h3, h4, hz, ha, hb, hz0, hz1, ha0, ha1, hs⟩ :
      DLine.Good atoi atof tab.length (.entry l z a b) := h (.entry l z a b) (by simp)
    have ih := defLines_good atoi atof ls (tab.set (1000 * z + a).toNat b)
      (fun d hd => by rw [List.length_set]; exact h d (by simp [hd]))
    show defLines atoi atof (l :: ls.map DLine.text) tab = .ok (putCells tab ([⟨l, l, 1000 * z + a, b⟩] ++ _))
    rw [putCells_append, defLines, if_neg h1, hz, ha, hb, if_neg (by omega), if_neg (by omega), if_neg (by omega),
      if_neg (by omega), List.getElem?_drop, List.getElem?_eq_getElem (by omega)]
    rw [List.getElem?_eq_getElem (by omega)] at h4
    simp only
    rw [if_neg (by intro he; apply h4; rw [← he]), writeAt_ok _ (by omega) hs]
    exact ih
  | .blank l :: ls, tab, h => by
    obtain ⟨h1, -, h3, h4, h5⟩ : DLine.Good atoi atof tab.length (.blank l) := h (.blank l) (by simp)
    have ih := defLines_good atoi atof ls tab (fun d hd => h d (by simp [hd]))
    show defLines atoi atof (l :: ls.map DLine.text) tab = .ok (putCells tab ([] ++ _))
    rw [defLines, if_neg h1, if_neg (by omega), if_neg (by omega)]
    by_cases hA : 199 < atoi ((l.drop 4).take 8)
    · rw [if_pos hA, ih]; rfl
    · rw [if_neg hA, if_neg (by omega), List.getElem?_drop, h5.resolve_right hA]
      simp only [if_true]
      rw [ih]; rfl

/-- **C94** (deformations).  For every well-formed deformation file with distinct nuclei, `getDeformation` returns the
tabulated value of every nucleus with charge up to 99 and mass number up to 199 that has one, and 0.2 for every other
nucleus of the table. -/
theorem C94_deformations (atoi : List Char → Int) (atof : List Char → K) (unset dflt : K) (size : Nat) (ls : List (DLine K))
    (hg : ∀ l ∈ ls, DLine.Good atoi atof size l)
    (hd : (ls.flatMap DLine.data).Pairwise fun a b => a.zaid ≠ b.zaid) (hu : ∀ c ∈ ls.flatMap DLine.data, c.mass ≠ unset)
    (cwd dir : Option (List Char)) (hf : Given cwd dir (commentText (ls.map DLine.text))) :
    ∃ tab, readDeformations atoi atof unset size cwd dir = .ok tab ∧
      (∀ c ∈ ls.flatMap DLine.data, getDeformation unset dflt tab c.zaid = .ok c.mass) ∧
      ∀ z : Int, 0 ≤ z → z < size → (∀ c ∈ ls.flatMap DLine.data, c.zaid ≠ z) →
        getDeformation unset dflt tab z = .ok dflt := by
  have hnl : ∀ l ∈ ls.map DLine.text, '\n' ∉ l := by
    intro l hl
    obtain ⟨m, hm, rfl⟩ := List.mem_map.mp hl
    have := hg m hm
    cases m with
    | comment l => exact this.2
    | entry l z a b => exact this.2.1
    | blank l => exact this.2.1
  have hb : ∀ c ∈ ls.flatMap DLine.data, 0 ≤ c.zaid ∧ c.zaid < size := by
    intro c hc
    obtain ⟨m, hm, hcm⟩ := List.mem_flatMap.mp hc
    have := hg m hm
    cases m with
    | comment l => simp [DLine.data] at hcm
    | blank l => simp [DLine.data] at hcm
    | entry l z a b =>
      simp only [DLine.data, List.mem_singleton] at hcm
      subst hcm
      obtain ⟨-, -, -, -, -, -, -, hz0, -, ha0, -, hs⟩ := this
      exact ⟨by show (0 : Int) ≤ 1000 * z + a; omega, hs⟩
  have hread : readDeformations atoi atof unset size cwd dir =
      .ok (putCells (List.replicate size unset) (ls.flatMap DLine.data)) := by
    unfold readDeformations
    rw [given_open hf]
    simp only [Bool.false_eq_true, if_false]
    rw [lines_text _ hnl]
    exact defLines_good atoi atof ls _ (by simpa using hg)
  refine ⟨_, hread, ?_, ?_⟩
  · intro c hc
    have hm := putCells_mem _ (List.replicate size unset) (by simpa using hb) hd c hc
    obtain ⟨x, hx, hxa⟩ := readAt_ok (xs := putCells (List.replicate size unset) (ls.flatMap DLine.data)) (hb c hc).1
      (by rw [putCells_length]; simpa using (hb c hc).2)
    rw [hm] at hx
    cases hx
    unfold getDeformation
    rw [hxa]
    simp [hu c hc]
  · intro z hz0 hz1 h
    obtain ⟨x, hx, hxa⟩ := readAt_ok (xs := putCells (List.replicate size unset) (ls.flatMap DLine.data)) hz0
      (by rw [putCells_length]; simpa using hz1)
    have : x = unset := by
      rw [putCells_other _ _ _ (fun c hc => by
        have := (hb c hc).1
        have := h c hc
        omega), List.getElem?_replicate] at hx
      split_ifs at hx
      cases hx; rfl
    unfold getDeformation
    rw [hxa, this]
    simp

/-! ## C95: missing and damaged files -/

/-- **C95** (what holds).  Without a file in either directory, the readers of the masses, deformations,
temperatures, level densities, spin scaling and pre-equilibrium fractions stop the program. -/
theorem C95_partial (atoi : List Char → Int) (atof : List Char → K) (inum : List Char → Option Int)
    (num : List Char → Option K) (row : List Char → K × K × K) (unset : K) (size n fuel : Nat) :
    readMasses atoi atof size none none = .exit ∧ readDeformations atoi atof unset size none none = .exit ∧
      readTemperatures inum num size n fuel none none = .exit ∧ readLDP inum num size n fuel none none = .exit ∧
      readSpinScaling row size none none = .exit ∧ readPreeq atoi inum num size fuel none none = .exit :=
  ⟨rfl, rfl, rfl, rfl, rfl, rfl⟩

/-- **C95** (precedence).  A file in the current directory is used whatever the data directory holds. -/
theorem C95_local (t : List Char) (dir : Option (List Char)) : openData (some t) dir = ⟨t, false, false⟩ := rfl

/-- **C95 is false** for the pre-equilibrium angular parameters: without the file the program runs for ever. -/
theorem C95_refuted (row : List Char → List K) (fuel : Nat) : readScatter row fuel none none = .more := by
  unfold readScatter
  show scatterLoop row fuel 0 0 _ ⟨[], false, true⟩ [] = .more
  generalize (List.replicate 8 (List.replicate 6 (0 : K))) = tab
  induction fuel with
  | zero => rfl
  | succ fuel ih =>
    rw [scatterLoop]
    simp only [Bool.false_eq_true, if_false]
    rw [getline_bad _ rfl]
    simpa using ih

/-- **C95 is false** for the anisotropy file: without the file the table is filled from uninitialised variables. -/
theorem C95_anisotropy {α : Type} (body : In → Out α) : readAnisotropy body none none = .ub := rfl

/-- The rows after the comments with a word that is no number. -/
theorem ldp_garbled_rows (inum : List Char → Option Int) (num : List Char → Option K) (size n : Nat) (hn : 0 < n)
    (first : List Char) (hf1 : '\n' ∉ first) (hf2 : first.head? ≠ some '#')
    (rows : List (DRow K)) (hne : rows ≠ []) (hr : ∀ r ∈ rows, r.Good inum num size n)
    (w t : List Char) (hw : Word w) (hw' : inum w = none) (ht : ∃ c t', t = c :: t' ∧ isWs c = true) :
    ∀ (comments : List (List Char)) (fuel : Nat) (str : List Char), (∀ l ∈ comments, Comment l) →
    ldpLoop inum num n fuel none (List.replicate size (List.replicate n 0))
      ⟨commentText comments ++ (first ++ '\n' :: (rows.flatMap DRow.text ++ (w ++ t))), false, false⟩ str = .more
  | _, 0, _, _ => rfl
  | [], fuel + 1, str, _ => by
    rw [ldpLoop]
    simp only [commentText, List.flatMap_nil, List.nil_append]
    rw [getline_line first _ hf1]
    simp only [Bool.false_eq_true, if_false]
    rw [if_neg hf2, readRows_mono inum num n fuel rows.length _ _ _
      (readRows_garbled inum num n hn rows fuel none _ w t (by simpa using hr)
        (fun row h => by rw [List.eq_of_mem_replicate h]; simp) hne hw hw' ht)]
    rfl
  | l :: ls, fuel + 1, str, h => by
    rw [ldpLoop, getline_comment l (h l (by simp))]
    simp only [Bool.false_eq_true, if_false]
    rw [if_pos (h l (by simp)).1]
    exact ldp_garbled_rows inum num size n hn first hf1 hf2 rows hne hr w t hw hw' ht ls fuel l
      (fun q hq => h q (by simp [hq]))

/-- **C95 is false** for damaged files: when a word in the place of a nucleus is no number (a comment between two rows, say)
the reader of the level densities never returns. -/
theorem C95_garbled (inum : List Char → Option Int) (num : List Char → Option K) (size n : Nat) (hn : 0 < n)
    (comments : List (List Char)) (hc : ∀ l ∈ comments, Comment l)
    (first : List Char) (hf1 : '\n' ∉ first) (hf2 : first.head? ≠ some '#')
    (rows : List (DRow K)) (hne : rows ≠ []) (hr : ∀ r ∈ rows, r.Good inum num size n)
    (w t : List Char) (hw : Word w) (hw' : inum w = none) (ht : ∃ c t', t = c :: t' ∧ isWs c = true)
    (cwd dir : Option (List Char))
    (hf : Given cwd dir (commentText comments ++ (first ++ '\n' :: (rows.flatMap DRow.text ++ (w ++ t))))) (fuel : Nat) :
    readLDP inum num size n fuel cwd dir = .more := by
  unfold readLDP
  rw [given_open hf]
  simp only [Bool.false_eq_true, if_false]
  exact ldp_garbled_rows inum num size n hn first hf1 hf2 rows hne hr w t hw hw' ht comments fuel [] hc

/-! ## Examples -/

/-- Conversion of a word, for the examples. -/
def numX (w : List Char) : Option ℚ := match Text.pyFloat w with | .ok v => some v | _ => none

/-- Conversion of a word to an integer, for the examples. -/
def inumX (w : List Char) : Option Int := match Text.pyInt w with | .ok v => some v | _ => none

/-- `atoi` on a field, for the examples. -/
def atoiX (w : List Char) : Int := (inumX ((w.dropWhile isWs).takeWhile fun c => !isWs c)).getD 0

/-- `atof` on a field, for the examples. -/
def atofX (w : List Char) : ℚ := (numX ((w.dropWhile isWs).takeWhile fun c => !isWs c)).getD 0

/-- Rows of the shipped level density file, cut to two energies. -/
def ldpRow (z v1 v2 : String) (a : Int) (x y : ℚ) : DRow ℚ :=
  ⟨⟨z.toList, [' '], a⟩, [⟨v1.toList, [' '], x⟩, ⟨v2.toList, ['\n'], y⟩]⟩

def ldp1 : DRow ℚ := ldpRow "15050" "6.00" "6.01" 15050 6 (601 / 100)
def ldp2 : DRow ℚ := ldpRow "16050" "5.88" "5.90" 16050 (588 / 100) (59 / 10)
def ldp3 : DRow ℚ := ldpRow "17050" "5.72" "5.78" 17050 (572 / 100) (578 / 100)

theorem ldpRow_good (r : DRow ℚ) (h : r = ldp1 ∨ r = ldp2 ∨ r = ldp3) : r.Good inumX numX 140000 2 := by
  rcases h with rfl | rfl | rfl <;>
  · refine ⟨⟨by unfold Word; decide +kernel, by unfold Gap; decide +kernel, by decide +kernel⟩, rfl, ?_, by decide +kernel,
      by decide +kernel⟩
    intro c hc
    simp only [ldp1, ldp2, ldp3, ldpRow, List.mem_cons, List.not_mem_nil, or_false] at hc
    rcases hc with rfl | rfl <;>
      exact ⟨by unfold Word; decide +kernel, by unfold Gap; decide +kernel, by decide +kernel⟩

theorem ldp_pairwise : [ldp1, ldp2, ldp3].Pairwise fun a c => a.head.val ≠ c.head.val := by decide +kernel

/-- With three rows of the shipped file the level density parameter of the first nucleus is the default 5. -/
example : ∃ tab, (∃ N, ∀ fuel, N ≤ fuel → readLDP inumX numX 140000 2 fuel none
      (some "# grid\n15050 6.00 6.01\n16050 5.88 5.90\n17050 5.72 5.78\n".toList) = .ok tab) ∧
    Frag.lookup 5 [0, 1] tab 15050 (1 / 2) = .ok 5 := by
  obtain ⟨tab, hN, -, h⟩ := C94_refuted inumX numX 140000 2 (by norm_num) ["# grid".toList]
    (by intro l hl; simp at hl; subst hl; unfold Comment; decide +kernel) ldp1 "15050 6.00 6.01".toList (by decide +kernel)
    (by decide +kernel) (by decide +kernel) [ldp2, ldp3] (by simp)
    (fun r hr => ldpRow_good r (by simpa using hr)) ldp_pairwise none
    (some "# grid\n15050 6.00 6.01\n16050 5.88 5.90\n17050 5.72 5.78\n".toList) (Or.inr ⟨rfl, by decide +kernel⟩)
  exact ⟨tab, hN, by rw [show (15050 : Int) = ldp1.head.val by rfl, h]; decide +kernel⟩

/-- The second nucleus has its row. -/
example : ∃ tab, (∃ N, ∀ fuel, N ≤ fuel → readLDP inumX numX 140000 2 fuel none
      (some "# grid\n15050 6.00 6.01\n16050 5.88 5.90\n17050 5.72 5.78\n".toList) = .ok tab) ∧
    tab[16050]? = some [588 / 100, 59 / 10] := by
  obtain ⟨tab, hN, -, h, -⟩ := C94_partial inumX numX 140000 2 (by norm_num) ["# grid".toList]
    (by intro l hl; simp at hl; subst hl; unfold Comment; decide +kernel) "15050 6.00 6.01".toList
    (by decide +kernel) (by decide +kernel) [ldp2, ldp3] (by simp)
    (fun r hr => ldpRow_good r (Or.inr (by simpa using hr))) (by decide +kernel) none
    (some "# grid\n15050 6.00 6.01\n16050 5.88 5.90\n17050 5.72 5.78\n".toList) (Or.inr ⟨rfl, by decide +kernel⟩)
  exact ⟨tab, hN, h ldp2 (by simp)⟩

/-- A temperature file is read from its first row on. -/
example : ∃ tab, (∃ N, ∀ fuel, N ≤ fuel → readTemperatures inumX numX 140000 2 fuel none
      (some "# grid\n0.0 1.0 \n# rows\n15050 6.00 6.01\n16050 5.88 5.90\n".toList) = .ok ([0, 1], tab)) ∧
    tab[15050]? = some [6, 601 / 100] := by
  obtain ⟨tab, hN, -, h, -⟩ := C94_temperatures inumX numX 140000 2 (by norm_num) ["# grid".toList]
    (by intro l hl; simp at hl; subst hl; unfold Comment; decide +kernel)
    [⟨"0.0".toList, [' '], 0⟩, ⟨"1.0".toList, [' ', '\n'], 1⟩] rfl
    (by
      intro c hc
      simp only [List.mem_cons, List.not_mem_nil, or_false] at hc
      rcases hc with rfl | rfl <;>
        exact ⟨by unfold Word; decide +kernel, by unfold Gap; decide +kernel, by decide +kernel⟩)
    [' '] rfl (by decide) (by decide +kernel) "# rows".toList (by decide +kernel) [ldp1, ldp2] (by simp)
    (fun r hr => ldpRow_good r (by simp at hr; rcases hr with h | h <;> simp [h])) (by decide +kernel) none
    (some "# grid\n0.0 1.0 \n# rows\n15050 6.00 6.01\n16050 5.88 5.90\n".toList) (Or.inr ⟨rfl, by decide +kernel⟩)
  exact ⟨tab, hN, h ldp1 (by simp)⟩

/-- A comment between two rows makes the reader run for ever. -/
example (fuel : Nat) : readLDP inumX numX 140000 2 fuel none
    (some "# grid\n15050 6.00 6.01\n16050 5.88 5.90\n# new\n17050 5.72 5.78\n".toList) = .more :=
  C95_garbled inumX numX 140000 2 (by norm_num) ["# grid".toList]
    (by intro l hl; simp at hl; subst hl; unfold Comment; decide +kernel) "15050 6.00 6.01".toList
    (by decide +kernel) (by decide +kernel) [ldp2] (by simp)
    (fun r hr => ldpRow_good r (by simp at hr; simp [hr])) ['#'] " new\n17050 5.72 5.78\n".toList
    (by unfold Word; decide +kernel) (by decide +kernel) ⟨' ', "new\n17050 5.72 5.78\n".toList, by decide +kernel, rfl⟩ none _
    (Or.inr ⟨rfl, by decide +kernel⟩) fuel

/-- Two cells of the shipped mass file. -/
def carbon12 : MCell ℚ := ⟨"   6012".toList, "   0.000000".toList, 6012, 0⟩

def carbon13 : MCell ℚ := ⟨"   6013".toList, "   3.125009".toList, 6013, 3125009 / 1000000⟩

theorem carbon_good (c : MCell ℚ) (h : c = carbon12 ∨ c = carbon13) : MCell.Good atoiX atofX 140000 c := by
  have key : ∀ (w x : List Char), (∀ a ∈ w, isWs a = false) → w ≠ [] →
      (x = [] ∨ x.head? = some ' ' ∨ x.head? = some '\r') → atofX ("   ".toList ++ w ++ x) = (numX w).getD 0 := by
    intro w x hw hne hx
    unfold atofX
    have h1 := takeWhile_append_stop isWs "   ".toList (w ++ x) (by decide) (by
      intro a ha
      cases w with
      | nil => exact absurd rfl hne
      | cons b w => simp at ha; subst ha; exact hw b (by simp))
    have h2 := takeWhile_append_stop (fun a => !isWs a) w x (fun a ha => by simp [hw a ha]) (by
      intro a ha
      rcases hx with rfl | hx | hx
      · simp at ha
      · rw [hx] at ha; cases ha; rfl
      · rw [hx] at ha; cases ha; rfl)
    rw [List.append_assoc, h1.2, h2.1]
  rcases h with rfl | rfl
  · refine ⟨rfl, rfl, rfl, by decide +kernel, by decide +kernel, by decide +kernel, fun x hx => ?_⟩
    show atofX ("   ".toList ++ "0.000000".toList ++ x) = 0
    rw [key _ x (by decide) (by decide) hx]; decide +kernel
  · refine ⟨rfl, rfl, rfl, by decide +kernel, by decide +kernel, by decide +kernel, fun x hx => ?_⟩
    show atofX ("   ".toList ++ "3.125009".toList ++ x) = 3125009 / 1000000
    rw [key _ x (by decide) (by decide) hx]; decide +kernel

/-- From a line of the shipped file carbon-13 is found and carbon-12 is reported missing. -/
example : ∃ tab, readMasses atoiX atofX 140000 none (some "# Audi\n   6012   0.000000   6013   3.125009\n".toList) = .ok tab ∧
    getMassExcess tab 6013 = .ok (3125009 / 1000000) ∧ getMassExcess tab 6012 = .exit := by
  obtain ⟨tab, h, h1, h2⟩ := C94_masses atoiX atofX 140000 [.comment "# Audi".toList, .cells [carbon12, carbon13] []]
    (by
      intro l hl
      simp only [List.mem_cons, List.not_mem_nil, or_false] at hl
      rcases hl with rfl | rfl
      · exact ⟨rfl, by decide +kernel⟩
      · refine ⟨fun c hc => ⟨carbon_good c (by simpa using hc), ?_⟩, Or.inl rfl⟩
        simp only [List.mem_cons, List.not_mem_nil, or_false] at hc
        rcases hc with rfl | rfl <;> decide +kernel)
    (by decide +kernel) none (some "# Audi\n   6012   0.000000   6013   3.125009\n".toList)
    (Or.inr ⟨rfl, by decide +kernel⟩)
  refine ⟨tab, h, h1 carbon13 (by simp [MLine.data]) (by decide +kernel), h2 6012 (by norm_num) (by norm_num) ?_⟩
  intro c hc hz
  simp only [MLine.data, List.flatMap_cons, List.flatMap_nil, List.nil_append, List.append_nil, List.mem_cons,
    List.not_mem_nil, or_false] at hc
  rcases hc with rfl | rfl
  · rfl
  · exact absurd hz (by decide +kernel)

/-- A line of the deformation file with a value (0.215). -/
def baLine : List Char := "  56 140 Ba 0   -83.276   -83.600    -0.260    0.215   0.0".toList

/-- A line without one. -/
def hLine : List Char := "   1   2 H  2    13.136                                 ".toList

example : ∃ tab, readDeformations atoiX atofX (-100) 140000 none (some (baLine ++ '\n' :: hLine ++ ['\n'])) = .ok tab ∧
    getDeformation (-100) (2 / 10) tab 56140 = .ok (215 / 1000) ∧ getDeformation (-100) (2 / 10) tab 1002 = .ok (2 / 10) := by
  obtain ⟨tab, h, h1, h2⟩ := C94_deformations atoiX atofX (-100) (2 / 10) 140000
    [.entry baLine 56 140 (215 / 1000), .blank hLine]
    (by
      intro l hl
      simp only [List.mem_cons, List.not_mem_nil, or_false] at hl
      rcases hl with rfl | rfl <;> unfold DLine.Good <;> decide +kernel)
    (by decide +kernel)
    (by intro c hc; simp [DLine.data] at hc; subst hc; norm_num) none (some (baLine ++ '\n' :: hLine ++ ['\n']))
    (Or.inr ⟨rfl, by decide +kernel⟩)
  refine ⟨tab, h, ?_, h2 1002 (by norm_num) (by norm_num) ?_⟩
  · exact h1 ⟨baLine, baLine, 1000 * 56 + 140, 215 / 1000⟩ (by simp [DLine.data])
  · intro c hc
    simp [DLine.data] at hc
    subst hc
    norm_num

end CGMF.Props
