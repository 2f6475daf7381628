import Verif.Model.Summary
import Verif.Spec.Summary
import Verif.Props.Toolkit2
import Verif.Proofs.Text

/-!
# C134, C135: the summary table, and what a threshold means

Readable from the statements with `Model/Summary.lean` (the methods of `Histories`) and `Spec/Summary.lean`.
-/

namespace CGMF.Props

open CGMF CGMF.Toolkit CGMF.Parser CGMF.Text

/-! ## C134 -/

theorem trim_pad (n : Nat) (s : List Char) (h : ∀ c ∈ s.head?, c ≠ ' ') : trim (List.replicate n ' ' ++ s) = s := by
  unfold trim
  induction n with
  | zero =>
      cases s with
      | nil => rfl
      | cons a s => simp [List.dropWhile_cons, h a (by simp)]
  | succ n ih => simpa [List.replicate_succ, List.dropWhile_cons] using ih

theorem fixed_head (d : Nat) (x : ℚ) : ∀ c ∈ (fmtFixed d x).head?, c ≠ ' ' := by
  intro c hc
  have h := isTok_fmtFixed d x
  intro e
  subst e
  exact absurd (h.2 ' ' (List.mem_of_mem_head? hc)) (by decide)

theorem cell_mean (w d : Nat) (hd : 0 < d) (xs : List ℚ) : ∃ c, cell w d (mean xs) = .ok c ∧ Shows d xs c := by
  by_cases h : xs = []
  · refine ⟨_, by unfold mean; rw [if_pos h]; rfl, fun _ => trim_pad _ _ (by simp), fun h' => absurd h h'⟩
  · refine ⟨_, by rw [mean_ok h]; rfl, fun h' => absurd h' h, fun _ => ⟨_, ?_, fixedInt_err d _⟩⟩
    rw [trim_pad _ _ (fixed_head d _), pyFloat_fmtFixed d hd]

/-- The cells of one row against the numbers to be averaged. -/
theorem cells_means (w d : Nat) (hd : 0 < d) : ∀ (rs : List (Res ℚ)) (vs : List (List ℚ)), rs = vs.map mean →
    ∃ cs, cells w d rs = .ok cs ∧ List.Forall₂ (Shows d) vs cs
  | _, [], h => by subst h; exact ⟨[], rfl, .nil⟩
  | _, v :: vs, h => by
      subst h
      obtain ⟨c, h1, h2⟩ := cell_mean w d hd v
      obtain ⟨cs, h3, h4⟩ := cells_means w d hd (vs.map mean) vs rfl
      refine ⟨c :: cs, ?_, .cons h2 h4⟩
      simp only [List.map_cons, cells, h1, Res.bind, h3]

/-- A row of the table shows a row of what is to be expected. -/
def RowShows (e : String × Nat × List (List ℚ)) (r : String × List (List Char)) : Prop :=
  r.1 = e.1 ∧ List.Forall₂ (Shows e.2.1) e.2.2 r.2

theorem render_rows : ∀ (rs : List SumRow) (es : List (String × Nat × List (List ℚ))),
    List.Forall₂ (fun r e => r.label = e.1 ∧ r.decimals = e.2.1 ∧ 0 < e.2.1 ∧ r.means = e.2.2.map mean) rs es →
    ∃ t, render rs = .ok t ∧ List.Forall₂ RowShows es t
  | [], _, h => by cases h; exact ⟨[], rfl, .nil⟩
  | r :: rs, _, h => by
      cases h with
      | cons h1 h2 =>
          rename_i e es
          obtain ⟨a, b, c, m⟩ := h1
          obtain ⟨cs, h3, h4⟩ := cells_means r.width r.decimals (b ▸ c) r.means e.2.2 m
          obtain ⟨t, h5, h6⟩ := render_rows rs es h2
          refine ⟨(r.label, cs) :: t, by simp only [render, h3, Res.bind, h5], .cons ⟨a, by rw [← b]; exact h4⟩ h6⟩

theorem map_both (f : PyFrag → ℚ) (ps : List (PyFrag × PyFrag)) : (flat ps).map f = both f ps := by
  unfold both flat
  rw [List.map_flatMap]; rfl

theorem threeMeans_flat (f : PyFrag → ℚ) (ps : List (PyFrag × PyFrag)) :
    threeMeans ((flat ps).map f) = [both f ps, light f ps, heavy f ps].map mean := by
  unfold threeMeans
  rw [(evens_flat f ps).1, (evens_flat f ps).2, map_both]; rfl

theorem sumMeans_flat (f : PyFrag → ℚ) (ps : List (PyFrag × PyFrag)) :
    sumMeans ((flat ps).map f) = [sums f ps, light f ps, heavy f ps].map mean := by
  unfold sumMeans
  rw [(evens_flat f ps).1, (evens_flat f ps).2, bcast_map]; rfl

theorem toQ_map (f : PyFrag → Int) (fs : List PyFrag) : toQ (fs.map f) = fs.map fun x => (f x : ℚ) := by
  unfold toQ; rw [List.map_map]; rfl

theorem toQ_light (f : PyFrag → Int) (ps : List (PyFrag × PyFrag)) :
    toQ (evens ((flat ps).map f)) = light (fun x => (f x : ℚ)) ps ∧ toQ (odds ((flat ps).map f)) = heavy (fun x => (f x : ℚ)) ps := by
  rw [(evens_flat f ps).1, (evens_flat f ps).2]
  unfold toQ light heavy
  rw [List.map_map, List.map_map]
  exact ⟨rfl, rfl⟩

theorem meanTotal_flat (f : PyFrag → Int) (ps : List (PyFrag × PyFrag)) :
    meanTotal ((flat ps).map f) = mean (sums (fun x => (f x : ℚ)) ps) := by
  unfold meanTotal
  rw [total_flat]
  simp only [Res.bind]
  congr 1
  unfold toQ sums
  rw [List.map_map]
  apply List.map_congr_left
  intro p _
  simp

theorem meanList_flat (f : PyFrag → List Vec4) (ps : List (PyFrag × PyFrag)) :
    meanList ((flat ps).map fun x => (f x).map (·.e)) = mean (energies (fun p => f p.1 ++ f p.2) ps) ∧
    meanList (evens ((flat ps).map fun x => (f x).map (·.e))) = mean (energies (fun p => f p.1) ps) ∧
    meanList (odds ((flat ps).map fun x => (f x).map (·.e))) = mean (energies (fun p => f p.2) ps) := by
  unfold meanList energies
  rw [(evens_flat _ ps).1, (evens_flat _ ps).2, flatten_flat]
  simp only [List.map_append, List.flatMap_def, and_self]

/-- **C134.** For every history of complete events, the summary table has its eleven rows, and every number in it, read
back, is the average of what its row and column name to half a unit of the last decimal: over all fragments, over the
light ones, over the heavy ones for mass, charge, spin and parity; over the sums of the two fragments of an event in the
first column for excitation energy, kinetic energy, neutrons and photons; over all neutrons with the pre-fission ones in
the last column. A cell without anything to average shows `nan`, but zero for the energy of pre-fission neutrons. -/
theorem C134_table (ps : List (PyFrag × PyFrag)) :
    ∃ t, summaryTable (flat ps) = .ok t ∧ List.Forall₂ RowShows (expected ps) t := by
  apply render_rows
  unfold fragmentRows particleRows expected masses nus nugs
  simp only [List.cons_append, List.nil_append]
  have hE := fun f => meanList_flat f ps
  refine .cons ⟨rfl, rfl, Nat.succ_pos _, ?_⟩ (.cons ⟨rfl, rfl, Nat.succ_pos _, ?_⟩ (.cons ⟨rfl, rfl, Nat.succ_pos _, ?_⟩
    (.cons ⟨rfl, rfl, Nat.succ_pos _, ?_⟩ (.cons ⟨rfl, rfl, Nat.succ_pos _, ?_⟩ (.cons ⟨rfl, rfl, Nat.succ_pos _, ?_⟩
    (.cons ⟨rfl, rfl, Nat.succ_pos _, ?_⟩ (.cons ⟨rfl, rfl, Nat.succ_pos _, ?_⟩ (.cons ⟨rfl, rfl, Nat.succ_pos _, ?_⟩
    (.cons ⟨rfl, rfl, Nat.succ_pos _, ?_⟩ (.cons ⟨rfl, rfl, Nat.succ_pos _, ?_⟩ .nil))))))))))
  · rw [toQ_map, threeMeans_flat]
  · rw [toQ_map, threeMeans_flat]
  · rw [sumMeans_flat]
  · rw [sumMeans_flat]
  · rw [threeMeans_flat]
  · rw [toQ_map, threeMeans_flat]
  · have h5 : nubartot (flat ps) = mean (ps.map fun p => (neutrons p : ℚ)) := by
      unfold nubartot
      rw [totals_flat]
      simp only [Res.bind]
      unfold toQ
      rw [List.map_map]
      rfl
    simp only [meanTotal_flat, (toQ_light _ ps).1, (toQ_light _ ps).2, preNu, h5]
    rfl
  · simp only [meanNeutronEcmFragments, meanNeutronEcmLF, meanNeutronEcmHF, nEcm, (hE _).1, (hE _).2.1, (hE _).2.2]
    rfl
  · have h4 : meanPreFissionNeutronElab (flat ps) = mean (orZero (energies preNeutrons ps)) := by
      unfold meanPreFissionNeutronElab
      rw [preList_flat]
      unfold orZero energies
      split
      · unfold mean; simp
      · rfl
    have h5 : meanNeutronElab (flat ps) = mean (energies (fun p => p.1.lab ++ p.2.lab) ps ++ energies preNeutrons ps) := by
      unfold meanNeutronElab nElab
      rw [preList_flat, flatten_flat]
      unfold energies
      simp only [List.map_append]
    simp only [meanNeutronElabFragments, meanNeutronElabLF, meanNeutronElabHF, nElab, (hE _).1, (hE _).2.1, (hE _).2.2, h4, h5]
    rfl
  · simp only [meanTotal_flat, (toQ_light _ ps).1, (toQ_light _ ps).2]
    rfl
  · simp only [meanGammaElab, meanGammaElabLF, meanGammaElabHF, gElab, (hE _).1, (hE _).2.1, (hE _).2.2]
    rfl

/-- The numbers in a row. -/
def numbers (cs : List (List Char)) : List (Res ℚ) := cs.map fun c => pyFloat (trim c)

theorem shows_value {d : Nat} {xs : List ℚ} {c : List Char} (h : Shows d xs c) (hne : xs ≠ []) :
    ∃ v, pyFloat (trim c) = .ok v ∧ |v - xs.sum / xs.length| ≤ 1 / 2 / 10 ^ d := h.2 hne

theorem sums_sum (f : PyFrag → ℚ) (ps : List (PyFrag × PyFrag)) :
    (sums f ps).sum = (light f ps).sum + (heavy f ps).sum ∧ (both f ps).sum = (light f ps).sum + (heavy f ps).sum := by
  induction ps with
  | nil => simp [sums, light, heavy, both]
  | cons p ps ih =>
      simp only [sums, light, heavy, both] at ih ⊢
      simp only [List.map_cons, List.sum_cons, List.flatMap_cons, List.sum_append, List.sum_nil, ih.1, ih.2]
      constructor <;> ring

theorem row_sum {d : Nat} {f : PyFrag → ℚ} {ps : List (PyFrag × PyFrag)} (hne : ps ≠ []) {cs : List (List Char)}
    {more : List (List ℚ)} (h : List.Forall₂ (Shows d) ([sums f ps, light f ps, heavy f ps] ++ more) cs) :
    ∃ a l h' rest, numbers cs = .ok a :: .ok l :: .ok h' :: rest ∧ |a - (l + h')| ≤ 3 / 2 / 10 ^ d := by
  have n1 : sums f ps ≠ [] := by simpa [sums] using hne
  have n2 : light f ps ≠ [] := by simpa [light] using hne
  have n3 : heavy f ps ≠ [] := by simpa [heavy] using hne
  cases h with | cons h1 h => cases h with | cons h2 h => cases h with | cons h3 h =>
  obtain ⟨a, e1, b1⟩ := shows_value h1 n1
  obtain ⟨l, e2, b2⟩ := shows_value h2 n2
  obtain ⟨r, e3, b3⟩ := shows_value h3 n3
  refine ⟨a, l, r, _, by simp only [numbers, List.map_cons, e1, e2, e3]; rfl, ?_⟩
  have hl : ((sums f ps).length : ℚ) = ps.length ∧ ((light f ps).length : ℚ) = ps.length ∧ ((heavy f ps).length : ℚ) = ps.length := by
    simp [sums, light, heavy]
  rw [hl.1, (sums_sum f ps).1, add_div] at b1
  rw [hl.2.1] at b2
  rw [hl.2.2] at b3
  rw [abs_le] at *
  obtain ⟨b1, b1'⟩ := b1; obtain ⟨b2, b2'⟩ := b2; obtain ⟨b3, b3'⟩ := b3
  have : (3 : ℚ) / 2 / 10 ^ d = 1 / 2 / 10 ^ d + 1 / 2 / 10 ^ d + 1 / 2 / 10 ^ d := by ring
  rw [this]
  constructor <;> linarith

theorem row_each {d : Nat} {f : PyFrag → ℚ} {ps : List (PyFrag × PyFrag)} (hne : ps ≠ []) {cs : List (List Char)}
    (h : List.Forall₂ (Shows d) [both f ps, light f ps, heavy f ps] cs) :
    ∃ a l h', numbers cs = [.ok a, .ok l, .ok h'] ∧ |2 * a - (l + h')| ≤ 2 / 10 ^ d := by
  have n1 : both f ps ≠ [] := by
    cases ps with
    | nil => exact absurd rfl hne
    | cons p ps => simp [both]
  have n2 : light f ps ≠ [] := by simpa [light] using hne
  have n3 : heavy f ps ≠ [] := by simpa [heavy] using hne
  cases h with | cons h1 h => cases h with | cons h2 h => cases h with | cons h3 h =>
  cases h
  obtain ⟨a, e1, b1⟩ := shows_value h1 n1
  obtain ⟨l, e2, b2⟩ := shows_value h2 n2
  obtain ⟨r, e3, b3⟩ := shows_value h3 n3
  refine ⟨a, l, r, by simp only [numbers, List.map_cons, e1, e2, e3, List.map_nil], ?_⟩
  have hl : ((both f ps).length : ℚ) = 2 * ps.length ∧ ((light f ps).length : ℚ) = ps.length ∧ ((heavy f ps).length : ℚ) = ps.length := by
    refine ⟨?_, by simp [light], by simp [heavy]⟩
    rw [← map_both, List.length_map, flat_length]; push_cast; ring
  have hp : (ps.length : ℚ) ≠ 0 := by exact_mod_cast fun e => hne (List.length_eq_zero_iff.mp e)
  have h2 : ((light f ps).sum + (heavy f ps).sum) / (2 * (ps.length : ℚ))
      = ((light f ps).sum / ps.length + (heavy f ps).sum / ps.length) / 2 := by field_simp
  rw [hl.1, (sums_sum f ps).2, h2] at b1
  rw [hl.2.1] at b2
  rw [hl.2.2] at b3
  rw [abs_le] at *
  obtain ⟨b1, b1'⟩ := b1; obtain ⟨b2, b2'⟩ := b2; obtain ⟨b3, b3'⟩ := b3
  have : (2 : ℚ) / 10 ^ d = 4 * (1 / 2 / 10 ^ d) := by ring
  rw [this]
  constructor <;> linarith

theorem row_mem {es : List (String × Nat × List (List ℚ))} {t : List (String × List (List Char))}
    (h : List.Forall₂ RowShows es t) : ∀ e ∈ es, ∃ cs, (e.1, cs) ∈ t ∧ List.Forall₂ (Shows e.2.1) e.2.2 cs := by
  induction h with
  | nil => simp
  | cons h1 _ ih =>
      rename_i b _ _ _
      intro e he
      rcases List.mem_cons.mp he with rfl | he
      · exact ⟨b.2, List.mem_cons.mpr (Or.inl (by rw [← h1.1])), h1.2⟩
      · obtain ⟨cs, h3, h4⟩ := ih e he
        exact ⟨cs, List.mem_cons_of_mem _ h3, h4⟩

theorem neutrons_sum (ps : List (PyFrag × PyFrag)) : (ps.map fun p => (neutrons p : ℚ)).sum
    = (sums (fun f => (f.nn : ℚ)) ps).sum + (heavy (fun f => (f.npn : ℚ)) ps).sum := by
  induction ps with
  | nil => simp [sums, heavy]
  | cons p ps ih =>
      simp only [sums, heavy, List.map_cons, List.sum_cons] at ih ⊢
      rw [ih]
      unfold neutrons
      push_cast
      ring

theorem row_nu {d : Nat} {ps : List (PyFrag × PyFrag)} (hne : ps ≠ []) {cs : List (List Char)}
    (h : List.Forall₂ (Shows d) [sums (fun f => (f.nn : ℚ)) ps, light (fun f => (f.nn : ℚ)) ps, heavy (fun f => (f.nn : ℚ)) ps,
      heavy (fun f => (f.npn : ℚ)) ps, ps.map fun p => (neutrons p : ℚ)] cs) :
    ∃ a l h p n, numbers cs = [.ok a, .ok l, .ok h, .ok p, .ok n] ∧
        |a - (l + h)| ≤ 3 / 2 / 10 ^ d ∧ |n - (a + p)| ≤ 3 / 2 / 10 ^ d := by
  obtain ⟨a, l, r, rest, e, b⟩ := row_sum (more := [heavy (fun f => (f.npn : ℚ)) ps, ps.map fun p => (neutrons p : ℚ)]) hne h
  cases h with | cons h1 h => cases h with | cons h2 h => cases h with | cons h3 h => cases h with | cons h4 h =>
  cases h with | cons h5 h =>
  cases h
  obtain ⟨a', e1, b1⟩ := shows_value h1 (by simpa [sums] using hne)
  obtain ⟨p, e4, b4⟩ := shows_value h4 (by simpa [heavy] using hne)
  obtain ⟨n, e5, b5⟩ := shows_value h5 (by simpa using hne)
  simp only [numbers, List.map_cons, List.map_nil, List.cons.injEq] at e
  obtain ⟨ea, el, er, _⟩ := e
  have : a' = a := by rw [e1] at ea; exact Res.ok.inj ea
  subst this
  refine ⟨a', l, r, p, n, by simp only [numbers, List.map_cons, List.map_nil, ea, el, er, e4, e5], b, ?_⟩
  have hl : ((sums (fun f => (f.nn : ℚ)) ps).length : ℚ) = ps.length ∧ ((heavy (fun f => (f.npn : ℚ)) ps).length : ℚ) = ps.length := by
    simp [sums, heavy]
  rw [hl.1] at b1
  rw [hl.2] at b4
  rw [neutrons_sum, List.length_map, add_div] at b5
  rw [abs_le] at *
  obtain ⟨b1, b1'⟩ := b1; obtain ⟨b2, b2'⟩ := b4; obtain ⟨b3, b3'⟩ := b5
  have : (3 : ℚ) / 2 / 10 ^ d = 1 / 2 / 10 ^ d + 1 / 2 / 10 ^ d + 1 / 2 / 10 ^ d := by ring
  rw [this]
  constructor <;> linarith

/-- **C134**, sum rules: in the table of every history with an event, the first number of the rows of excitation energy,
kinetic energy, neutrons and photons is the sum of the numbers for light and heavy fragments, the first number of the
rows of mass, charge, spin and parity is half of it, and the last number of the row of neutrons is the first plus the
one for pre-fission neutrons, all up to the rounding of the numbers shown. -/
theorem C134_sums (ps : List (PyFrag × PyFrag)) (hne : ps ≠ []) :
    ∃ t, summaryTable (flat ps) = .ok t ∧
      (∀ s ∈ ["TXE / U (MeV)", "TKE / KE (MeV)", "nu", "nu gamma"], ∃ cs, (s, cs) ∈ t ∧
        ∃ a l h rest, numbers cs = .ok a :: .ok l :: .ok h :: rest ∧ |a - (l + h)| ≤ 3 / 2 / 10 ^ 2) ∧
      (∀ s ∈ ["A", "Z", "J", "parity"], ∃ cs, (s, cs) ∈ t ∧
        ∃ a l h, numbers cs = [.ok a, .ok l, .ok h] ∧ |2 * a - (l + h)| ≤ 2 / 10 ^ 2) ∧
      (∃ cs, ("nu", cs) ∈ t ∧ ∃ a l h p n, numbers cs = [.ok a, .ok l, .ok h, .ok p, .ok n] ∧
        |a - (l + h)| ≤ 3 / 2 / 10 ^ 3 ∧ |n - (a + p)| ≤ 3 / 2 / 10 ^ 3) := by
  obtain ⟨t, ht, hr⟩ := C134_table ps
  refine ⟨t, ht, ?_⟩
  have key : ∀ (s : String) (d : Nat) (vs : List (List ℚ)), (s, d, vs) ∈ expected ps →
      ∃ cs, (s, cs) ∈ t ∧ List.Forall₂ (Shows d) vs cs := fun s d vs h => row_mem hr (s, d, vs) h
  have hnu : ∃ cs, ("nu", cs) ∈ t ∧ ∃ a l h p n, numbers cs = [.ok a, .ok l, .ok h, .ok p, .ok n] ∧
        |a - (l + h)| ≤ 3 / 2 / 10 ^ 3 ∧ |n - (a + p)| ≤ 3 / 2 / 10 ^ 3 := by
    obtain ⟨cs, h1, h2⟩ := key "nu" 3 _ (by simp only [expected]; simp; rfl)
    exact ⟨cs, h1, row_nu hne h2⟩
  refine ⟨?_, ?_, hnu⟩
  · intro s hs
    simp only [List.mem_cons, List.not_mem_nil, or_false] at hs
    rcases hs with rfl | rfl | rfl | rfl
    · obtain ⟨cs, h1, h2⟩ := key "TXE / U (MeV)" 2 _ (by simp only [expected]; simp; rfl)
      exact ⟨cs, h1, row_sum (more := []) hne h2⟩
    · obtain ⟨cs, h1, h2⟩ := key "TKE / KE (MeV)" 2 _ (by simp only [expected]; simp; rfl)
      exact ⟨cs, h1, row_sum (more := []) hne h2⟩
    · obtain ⟨cs, h1, a, l, h, p, n, h2, h3, _⟩ := hnu
      exact ⟨cs, h1, a, l, h, _, h2, h3.trans (by norm_num)⟩
    · obtain ⟨cs, h1, h2⟩ := key "nu gamma" 2 _ (by simp only [expected]; simp; rfl)
      exact ⟨cs, h1, row_sum (more := []) hne h2⟩
  · intro s hs
    simp only [List.mem_cons, List.not_mem_nil, or_false] at hs
    rcases hs with rfl | rfl | rfl | rfl
    · obtain ⟨cs, h1, h2⟩ := key "A" 2 _ (by simp only [expected]; simp; rfl)
      exact ⟨cs, h1, row_each hne h2⟩
    · obtain ⟨cs, h1, h2⟩ := key "Z" 2 _ (by simp only [expected]; simp; rfl)
      exact ⟨cs, h1, row_each hne h2⟩
    · obtain ⟨cs, h1, h2⟩ := key "J" 2 _ (by simp only [expected]; simp; rfl)
      exact ⟨cs, h1, row_each hne h2⟩
    · obtain ⟨cs, h1, h2⟩ := key "parity" 2 _ (by simp only [expected]; simp; rfl)
      exact ⟨cs, h1, row_each hne h2⟩

/-- The table of two events: the number of neutrons, with a pre-fission neutron in the second. -/
example : ∃ t, summaryTable (flat meEvents) = .ok t ∧ ("nu", ["2.000".toList, "1.000".toList, "1.000".toList, "0.500".toList,
    "2.500".toList]) ∈ t ∧ ("TKE / KE (MeV)", ["178.50".toList, "99.50".toList, "79.00".toList]) ∈ t ∧
    ("parity", [" 1.00".toList, " 1.00".toList, " 1.00".toList]) ∈ t ∧
    ("neutron energy, lab", ["2.000".toList, "2.500".toList, "1.500".toList, "5.000".toList, "2.600".toList]) ∈ t ∧
    ("photon energy, lab", [" 1.12".toList, " 1.33".toList, " 0.50".toList]) ∈ t := by
  refine ⟨_, rfl, ?_⟩
  decide +kernel

/-- No neutron at all: `nan` for the energies, zero for those of pre-fission neutrons. -/
example : (summaryTable (flat [(tkFrag 96 [] [(1, 1)] 0, { tkFrag 139 [] [] 0 with pren := [⟨0, 0, 0, 0⟩] })])).bind
    (fun t => Res.ok (t.filter fun r => r.1 == "neutron energy, lab"))
    = .ok [("neutron energy, lab", ["nan".toList, "nan".toList, "nan".toList, "0.000".toList, "nan".toList])] := by
  decide +kernel

example : meEvents ≠ [] := by decide +kernel

/-! ## C135 -/

theorem above_atLeast (eth : ℚ) (xs : List ℚ) : atLeast eth xs = above eth xs + (xs.filter fun x => decide (x = eth)).length := by
  induction xs with
  | nil => rfl
  | cons x xs ih =>
      unfold atLeast above at *
      simp only [List.filter_cons]
      rcases lt_trichotomy eth x with h | h | h
      · simp only [h.le, h, h.ne', decide_true, decide_false, if_true, Bool.false_eq_true, if_false, List.length_cons]
        push_cast; omega
      · subst h
        simp only [le_refl, lt_irrefl, decide_true, decide_false, if_true, Bool.false_eq_true, if_false, List.length_cons]
        push_cast; omega
      · simp only [not_le.mpr h, not_lt.mpr h.le, h.ne, decide_false, Bool.false_eq_true, if_false]
        exact ih

/-- Photons of energy exactly `eth` in a history. -/
def photonsAt (eth : ℚ) (fs : List PyFrag) : Nat := (fs.flatMap fun f => f.phot.filter fun g => decide (g.e = eth)).length

theorem cut_sum (eth : ℚ) (fs : List PyFrag) :
    (toQ ((gElab fs).map (atLeast eth))).sum = (toQ (getNugEnergyCut eth fs)).sum + photonsAt eth fs := by
  induction fs with
  | nil => simp [toQ, gElab, getNugEnergyCut, photonsAt]
  | cons f fs ih =>
      simp only [toQ, gElab, getNugEnergyCut, photonsAt, List.map_cons, List.sum_cons, List.flatMap_cons,
        List.length_append] at ih ⊢
      rw [ih, above_atLeast, List.filter_map, List.length_map]
      simp only [Function.comp_def]
      push_cast
      ring

/-- **C135**, full claim. For every history, the mean of `getNugEnergyCut(Eth)` is `nubarg(Eth=Eth)`: the two methods
mean the same by a threshold. Refuted by `C135_refuted`. -/
def ThresholdAgrees (eth : ℚ) (fs : List PyFrag) : Prop := mean (toQ (getNugEnergyCut eth fs)) = nubarg eth fs

/-- **C135**, partial: the two methods differ by the photons whose energy is exactly the threshold, and agree if and
only if there are none. What is missing is agreement for all thresholds, which fails. -/
theorem C135_threshold_partial (eth : ℚ) (fs : List PyFrag) (hne : fs ≠ []) :
    (∃ a b, mean (toQ (getNugEnergyCut eth fs)) = .ok a ∧ nubarg eth fs = .ok b ∧ b - a = photonsAt eth fs / fs.length) ∧
      (ThresholdAgrees eth fs ↔ ∀ f ∈ fs, ∀ g ∈ f.phot, g.e ≠ eth) := by
  have h1 : toQ (getNugEnergyCut eth fs) ≠ [] := by simpa [toQ, getNugEnergyCut, gElab] using hne
  have h2 : toQ ((gElab fs).map (atLeast eth)) ≠ [] := by simpa [toQ, gElab] using hne
  have hl1 : ((toQ (getNugEnergyCut eth fs)).length : ℚ) = fs.length := by simp [toQ, getNugEnergyCut, gElab]
  have hl2 : ((toQ ((gElab fs).map (atLeast eth))).length : ℚ) = fs.length := by simp [toQ, gElab]
  have hp : (fs.length : ℚ) ≠ 0 := by exact_mod_cast fun e => hne (List.length_eq_zero_iff.mp e)
  have e1 := mean_ok h1
  have e2 : nubarg eth fs = _ := mean_ok h2
  rw [hl1] at e1
  rw [hl2, cut_sum] at e2
  refine ⟨⟨_, _, e1, e2, by ring⟩, ?_⟩
  unfold ThresholdAgrees
  rw [e1, e2, Res.ok.injEq, div_left_inj' hp]
  constructor
  · intro h f hf g hg he
    have h0 : (photonsAt eth fs : ℚ) = 0 := by linarith
    have h0 : photonsAt eth fs = 0 := by exact_mod_cast h0
    unfold photonsAt at h0
    have := List.length_eq_zero_iff.mp h0
    rw [List.flatMap_eq_nil_iff] at this
    have := this f hf
    rw [List.filter_eq_nil_iff] at this
    exact this g hg (by simpa using he)
  · intro h
    have : photonsAt eth fs = 0 := by
      unfold photonsAt
      rw [List.length_eq_zero_iff, List.flatMap_eq_nil_iff]
      intro f hf
      rw [List.filter_eq_nil_iff]
      intro g hg
      simpa using h f hf g hg
    rw [this]; simp

/-- **C135**, refuted: every photon of a history gives a threshold for which the two methods differ. -/
theorem C135_refuted (fs : List PyFrag) (f : PyFrag) (hf : f ∈ fs) (g : Vec4) (hg : g ∈ f.phot) : ¬ ThresholdAgrees g.e fs := by
  rw [(C135_threshold_partial g.e fs (List.ne_nil_of_mem hf)).2]
  intro h
  exact h f hf g hg rfl

/-- **C135**, what does hold of the counts per fragment: they are never larger than the recorded numbers, decrease with
the threshold, and below the smallest energy they are the recorded numbers. -/
theorem C135_counts (fs : List PyFrag) (hc : ∀ f ∈ fs, f.nn = f.lab.length ∧ f.ng = f.phot.length) :
    (∀ eth, List.Forall₂ (· ≤ ·) (getNuEnergyCut eth fs) (nus fs) ∧ List.Forall₂ (· ≤ ·) (getNugEnergyCut eth fs) (nugs fs)) ∧
    (∀ x y, x ≤ y → List.Forall₂ (· ≤ ·) (getNuEnergyCut y fs) (getNuEnergyCut x fs) ∧
      List.Forall₂ (· ≤ ·) (getNugEnergyCut y fs) (getNugEnergyCut x fs)) ∧
    (∀ eth, (∀ f ∈ fs, ∀ n ∈ f.lab, eth < n.e) → getNuEnergyCut eth fs = nus fs) ∧
    (∀ eth, (∀ f ∈ fs, ∀ g ∈ f.phot, eth < g.e) → getNugEnergyCut eth fs = nugs fs) := by
  have hle : ∀ eth xs, above eth xs ≤ (xs.length : Int) := fun eth xs => by
    unfold above; exact_mod_cast List.length_filter_le _ _
  have hmono : ∀ x y : ℚ, x ≤ y → ∀ xs, above y xs ≤ above x xs := fun x y h xs => by
    unfold above
    have : (xs.filter fun e => decide (y < e)).Sublist (xs.filter fun e => decide (x < e)) := by
      apply List.monotone_filter_right
      intro a ha
      simp only [decide_eq_true_eq] at ha ⊢
      linarith
    exact_mod_cast this.length_le
  have hall : ∀ eth (xs : List ℚ), (∀ e ∈ xs, eth < e) → above eth xs = xs.length := fun eth xs h => by
    unfold above; rw [List.filter_eq_self.mpr (by simpa using h)]
  have f2 : ∀ (F G : PyFrag → Int), (∀ f ∈ fs, F f ≤ G f) → List.Forall₂ (· ≤ ·) (fs.map F) (fs.map G) := by
    intro F G h
    rw [List.forall₂_map_left_iff, List.forall₂_map_right_iff, List.forall₂_same]
    exact h
  unfold getNuEnergyCut getNugEnergyCut nElab gElab nus nugs
  simp only [List.map_map]
  refine ⟨fun eth => ⟨f2 _ _ fun f hf => ?_, f2 _ _ fun f hf => ?_⟩,
    fun x y h => ⟨f2 _ _ fun f _ => hmono x y h _, f2 _ _ fun f _ => hmono x y h _⟩, fun eth h => ?_, fun eth h => ?_⟩
  · rw [(hc f hf).1]; simpa using hle eth (f.lab.map (·.e))
  · rw [(hc f hf).2]; simpa using hle eth (f.phot.map (·.e))
  · apply List.map_congr_left
    intro f hf
    rw [(hc f hf).1]
    simpa using hall eth (f.lab.map (·.e)) (by simpa using h f hf)
  · apply List.map_congr_left
    intro f hf
    rw [(hc f hf).2]
    simpa using hall eth (f.phot.map (·.e)) (by simpa using h f hf)

/-- A photon of exactly 1 MeV and one of 2 MeV, the threshold at 1 MeV. -/
example : getNugEnergyCut 1 (flat meEvents) = [1, 0, 0, 0] ∧ nubarg 1 (flat meEvents) = .ok (3 / 4) ∧
    mean (toQ (getNugEnergyCut 1 (flat meEvents))) = .ok (1 / 4) ∧ photonsAt 1 (flat meEvents) = 2 ∧
    getNuEnergyCut 2 (flat meEvents) = [1, 0, 0, 0] ∧ nus (flat meEvents) = [2, 1, 0, 1] ∧
    (∀ f ∈ flat meEvents, f.nn = f.lab.length ∧ f.ng = f.phot.length) ∧
    (∀ f ∈ flat meEvents, ∀ g ∈ f.phot, g.e ≠ 3 / 4) := by decide +kernel

end CGMF.Props
