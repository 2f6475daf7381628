import Verif.Proofs.History

/-!
# C12, C13, C14, C64: history and yields files

The statements use only `Verif/Spec/History.lean`: contents as lists and error bounds.
-/

set_option linter.unusedSimpArgs false

namespace CGMF.Props

open CGMF CGMF.Text CGMF.Printer CGMF.Parser CGMF.Spec CGMF.History

theorem hd {α β : Type} {R : α → β → Prop} {f : Int → β} {a : α} {l : List α} {lo : Int}
    (h : ∀ (i : Nat) (hi : i < (a :: l).length), R (a :: l)[i] (f (lo + i))) : R a (f lo) := by
  have := h 0 (Nat.succ_pos _)
  rwa [show lo + ((0 : Nat) : Int) = lo from add_zero lo] at this

theorem forall2_mapFrom {α β : Type} {R : α → β → Prop} (f : Int → β) (l : List α) (lo : Int)
    (h : ∀ (i : Nat) (hi : i < l.length), R l[i] (f (lo + i))) :
    List.Forall₂ R l (mapFrom f lo l.length) := by
  induction l generalizing lo with
  | nil => exact List.Forall₂.nil
  | cons a l ih =>
    refine List.Forall₂.cons (hd h) (ih (lo + 1) ?_)
    intro i hi
    have := h (i + 1) (by simpa using hi)
    simpa [add_assoc, add_comm (1 : Int)] using this

theorem getShows_parts {g : Getters} {a b : List Particle} (h : GetShows g (a ++ b)) :
    List.Forall₂ ReadsP a (mapFrom (rvec g) 0 a.length) ∧
    List.Forall₂ ReadsP b (mapFrom (rvec g) a.length b.length) := by
  constructor
  · apply forall2_mapFrom
    intro i hi
    have := h i (by simp; omega)
    rw [List.getElem_append_left hi] at this
    simp only [zero_add, rvec, ReadsP, this]
    exact ⟨rounded_rv _ _, rounded_rv _ _, rounded_rv _ _, rounded_rv _ _⟩
  · apply forall2_mapFrom
    intro i hi
    have := h (a.length + i) (by simp; omega)
    rw [List.getElem_append_right (by omega)] at this
    simp only [Nat.add_sub_cancel_left, Nat.cast_add] at this
    simp only [rvec, ReadsP, this]
    exact ⟨rounded_rv _ _, rounded_rv _ _, rounded_rv _ _, rounded_rv _ _⟩

theorem evens_odds_flatMap {α β : Type} (f g : α → β) (l : List α) :
    evens (l.flatMap (fun x => [f x, g x])) = l.map f ∧
    odds (l.flatMap (fun x => [f x, g x])) = l.map g := by
  induction l with
  | nil => exact ⟨rfl, rfl⟩
  | cons a l ih => simp [evens, odds, ih.1, ih.2]

/-- The rows read for one event carry the event. -/
theorem event_reads (w : ℚ) (v : PView) (c : EvC) (h : Shows v c) :
    (ReadsFrag w c.light (rFrag w v v.light 0 0 0 []) ∧
      ReadsFrag w c.heavy (rFrag w v v.heavy v.light.nu v.light.nug v.nuPre (rPre v))) ∧
    ReadsPre c.pren (rFrag w v v.heavy v.light.nu v.light.nug v.nuPre (rPre v)) := by
  obtain ⟨hl, hh, hp, hcm, hlab, hph, hage, hpre⟩ := h
  obtain ⟨l1, l2, l3, l4, l5, l6, l7, l8, l9, l10, l11⟩ := hl
  obtain ⟨h1, h2, h3, h4, h5, h6, h7, h8, h9, h10, h11⟩ := hh
  rw [List.map_append] at hcm hlab hph
  obtain ⟨cm1, cm2⟩ := getShows_parts hcm
  obtain ⟨lab1, lab2⟩ := getShows_parts hlab
  obtain ⟨ph1, ph2⟩ := getShows_parts hph
  have pr := (getShows_parts (b := []) (by simpa using hpre)).1
  simp only [List.length_map] at cm1 cm2 lab1 lab2 ph1 ph2
  have ag1 : List.Forall₂ Sig6 (c.light.photons.map Prod.snd)
      (mapFrom (fun i => gVal (v.age i)) 0 (c.light.photons.map Prod.snd).length) := by
    apply forall2_mapFrom
    intro i hi
    simp only [List.length_map] at hi
    have := hage i (by simp; omega)
    rw [List.getElem_append_left hi] at this
    simp only [zero_add, this, List.getElem_map]
    exact sig6_gVal _
  have ag2 : List.Forall₂ Sig6 (c.heavy.photons.map Prod.snd)
      (mapFrom (fun i => gVal (v.age i)) c.light.photons.length
        (c.heavy.photons.map Prod.snd).length) := by
    apply forall2_mapFrom
    intro i hi
    simp only [List.length_map] at hi
    have := hage (c.light.photons.length + i) (by simp; omega)
    rw [List.getElem_append_right (by omega)] at this
    simp only [Nat.add_sub_cancel_left, Nat.cast_add] at this
    simp only [this, List.getElem_map]
    exact sig6_gVal _
  simp only [List.length_map] at ag1 ag2
  refine ⟨⟨?_, ?_⟩, ?_⟩
  · refine ⟨l1, l2, l3 ▸ rounded_rv _ _, l4 ▸ rounded_rv _ _, l5, l6 ▸ rounded_rv _ _,
      l7 ▸ rounded_rv _ _, by simp [rFrag, l10], by simp [rFrag, l11],
      l8 ▸ ⟨rounded_rv _ _, rounded_rv _ _, rounded_rv _ _⟩,
      l9 ▸ ⟨rounded_rv _ _, rounded_rv _ _, rounded_rv _ _⟩, ?_, ?_, ?_, ?_, ?_⟩
    · simpa [rFrag, l10] using cm1
    · simpa [rFrag, l10] using lab1
    · simpa [rFrag, l11] using ph1
    · intro hw; simpa [rFrag, rAges, hw, l11] using ag1
    · intro hw; simp [rFrag, rAges, hw, l11]
  · refine ⟨h1, h2, h3 ▸ rounded_rv _ _, h4 ▸ rounded_rv _ _, h5, h6 ▸ rounded_rv _ _,
      h7 ▸ rounded_rv _ _, by simp [rFrag, h10], by simp [rFrag, h11],
      h8 ▸ ⟨rounded_rv _ _, rounded_rv _ _, rounded_rv _ _⟩,
      h9 ▸ ⟨rounded_rv _ _, rounded_rv _ _, rounded_rv _ _⟩, ?_, ?_, ?_, ?_, ?_⟩
    · simpa [rFrag, l10, h10] using cm2
    · simpa [rFrag, l10, h10] using lab2
    · simpa [rFrag, l11, h11] using ph2
    · intro hw; simpa [rFrag, rAges, hw, l11, h11] using ag2
    · intro hw; simp [rFrag, rAges, hw, h11]
  · refine ⟨by simp [rFrag, hp], ?_, ?_⟩
    · intro hne
      have : 0 < v.nuPre := by rw [hp]; exact List.length_pos_of_ne_nil hne
      simp only [rFrag, rPre, this, if_true]
      rw [hp]; exact pr
    · intro he
      have : v.nuPre = 0 := by rw [hp, he]; rfl
      simp [rFrag, rPre, this]

/-- The events a reader limited to `nev` events keeps. -/
def kept {α : Type} (nev : Option Nat) (evs : List α) : List α :=
  match nev with
  | none => evs
  | some n => evs.take n

theorem forall2_kept {α β : Type} {R : α → β → Prop} {a : List α} {b : List β}
    (h : List.Forall₂ R a b) (nev : Option Nat) : List.Forall₂ R (kept nev a) (kept nev b) := by
  cases nev with
  | none => exact h
  | some n => exact List.forall₂_take n h

/-- **C12.**  Every history file written by the driver is read back by the toolkit: any number of
events, any multiplicities, any values, with or without a limit on the number of events.  The rows at
even positions are the light fragments, at odd positions the heavy fragments, in order, with integers
exact, quantities rounded as printed, emission times to six significant digits if the window is
negative. -/
theorem C12_history_roundtrip (nev : Option Nat) (zaid : Int) (einc w : ℚ) (views : List PView)
    (evs : List EvC) (h : List.Forall₂ Shows views evs) :
    ∃ e' t' fs, readHistory nev (rankFile 0 zaid einc w views) = .ok (⟨zaid, e', t'⟩, fs) ∧
      Sig6 einc e' ∧ Sig6 w t' ∧ fs.length = 2 * (kept nev evs).length ∧
      List.Forall₂ (fun c r => ReadsFrag w c.light r ∧ r.npn = 0 ∧ r.pren = [])
        (kept nev evs) (evens fs) ∧
      List.Forall₂ (fun c r => ReadsFrag w c.heavy r ∧ ReadsPre c.pren r)
        (kept nev evs) (odds fs) := by
  refine ⟨gVal einc, gVal w, (kept nev views).flatMap (rEvent w), readHistory_file nev zaid einc w views,
    sig6_gVal _, sig6_gVal _, ?_, ?_, ?_⟩
  · have hl := (forall2_kept h nev).length_eq
    rw [← hl]
    induction kept nev views with
    | nil => rfl
    | cons a l ih => simp [rEvent, ih]; ring
  · have : evens ((kept nev views).flatMap (rEvent w))
        = (kept nev views).map (fun v => rFrag w v v.light 0 0 0 []) :=
      (evens_odds_flatMap _ _ _).1
    rw [this, List.forall₂_map_right_iff]
    refine ((forall2_kept h nev).flip).imp ?_
    intro c v hs
    exact ⟨(event_reads w v c hs).1.1, rfl, rfl⟩
  · have : odds ((kept nev views).flatMap (rEvent w))
        = (kept nev views).map
          (fun v => rFrag w v v.heavy v.light.nu v.light.nug v.nuPre (rPre v)) :=
      (evens_odds_flatMap _ _ _).2
    rw [this, List.forall₂_map_right_iff]
    refine ((forall2_kept h nev).flip).imp ?_
    intro c v hs
    exact ⟨(event_reads w v c hs).1.2, (event_reads w v c hs).2⟩

/-- Values that are already multiples of the printed precision come back exactly. -/
theorem C12_exact_on_grid {d : Nat} {x y : ℚ} (k : Int) (hx : x = k / 10 ^ d) (h : Rounded d x y) :
    y = x := by
  obtain ⟨herr, m, hm⟩ := h
  have hp : (0 : ℚ) < 10 ^ d := by positivity
  rw [hm, hx] at herr ⊢
  have : |((m : ℚ) - k)| ≤ 1 / 2 := by
    rw [← sub_div, abs_div, abs_of_pos hp] at herr
    exact (div_le_div_iff_of_pos_right hp).mp herr
  have h2 : |m - k| < 1 := by
    have : ((|m - k| : Int) : ℚ) < 1 := by push_cast; linarith
    exact_mod_cast this
  have : m = k := by have := Int.abs_lt_one_iff.mp h2; omega
  rw [this]

/-- **C14.**  The files of all ranks concatenated in rank order are one history file: the toolkit
reads all events, rank after rank. -/
theorem C14_concatenation (nev : Option Nat) (zaid : Int) (einc w : ℚ) (first : List PView)
    (others : List (List PView)) (evs : List EvC)
    (h : List.Forall₂ Shows (first ++ others.flatten) evs) :
    ∃ e' t' fs,
      readHistory nev (((first :: others).zipIdx).flatMap
          (fun r => rankFile r.2 zaid einc w r.1)) = .ok (⟨zaid, e', t'⟩, fs) ∧
      Sig6 einc e' ∧ Sig6 w t' ∧
      List.Forall₂ (fun c r => ReadsFrag w c.light r ∧ r.npn = 0 ∧ r.pren = [])
        (kept nev evs) (evens fs) ∧
      List.Forall₂ (fun c r => ReadsFrag w c.heavy r ∧ ReadsPre c.pren r)
        (kept nev evs) (odds fs) := by
  have hcat : ((first :: others).zipIdx).flatMap (fun r => rankFile r.2 zaid einc w r.1)
      = rankFile 0 zaid einc w (first ++ others.flatten) := by
    have gen : ∀ (l : List (List PView)) (k : Nat), 0 < k →
        (l.zipIdx k).flatMap (fun r => rankFile r.2 zaid einc w r.1)
          = l.flatten.flatMap (printEvent w) := by
      intro l
      induction l with
      | nil => intro k _; rfl
      | cons a l ih =>
        intro k hk
        rw [List.zipIdx_cons, List.flatMap_cons, ih (k + 1) (by omega), List.flatten_cons,
          List.flatMap_append]
        simp [rankFile, Nat.ne_of_gt hk]
    rw [List.zipIdx_cons, List.flatMap_cons, gen others (0 + 1) (by omega)]
    simp [rankFile]
  rw [hcat]
  obtain ⟨e', t', fs, h1, h2, h3, -, h5, h6⟩ := C12_history_roundtrip nev zaid einc w _ evs h
  exact ⟨e', t', fs, h1, h2, h3, h5, h6⟩

/-- C14: the file of any other rank taken alone is refused, as is an empty file. -/
theorem C14_headerless_refused (nev : Option Nat) (ip : Nat) (hip : 0 < ip) (zaid : Int) (einc w : ℚ)
    (views : List PView) : readHistory nev (rankFile ip zaid einc w views) = .exit := by
  have h0 : ip ≠ 0 := by omega
  simp only [rankFile, h0, if_false, List.nil_append]
  cases views with
  | nil => simp [readHistory, fileLines, linesAux, readline, readHeader]
  | cons v vs =>
    have h1 : (v :: vs).flatMap (printEvent w)
        = ((v :: vs).flatMap (evLines w)).flatMap (fun l => l ++ ['\n']) := by
      rw [List.flatMap_assoc]
      exact List.flatMap_congr (fun a _ => printEvent_eq w a)
    have h2 := fileLines_flatMap ((v :: vs).flatMap (evLines w)) (by
      intro x hx
      simp only [List.mem_flatMap] at hx
      obtain ⟨ev, _, hx⟩ := hx
      exact evLines_no_newline w ev x hx)
    unfold readHistory
    rw [h1, h2, List.flatMap_cons]
    simp [evLines, fragLines, preSpaced, fragToks, readline, readHeader]

/-! ## A file with two fragments, written and read back -/

/-- Getters for a constant list. -/
def listGetters (l : List (ℚ × ℚ × ℚ × ℚ)) : Getters where
  u := fun i => (l[i.toNat]?.getD (0, 0, 0, 0)).1
  v := fun i => (l[i.toNat]?.getD (0, 0, 0, 0)).2.1
  w := fun i => (l[i.toNat]?.getD (0, 0, 0, 0)).2.2.1
  e := fun i => (l[i.toNat]?.getD (0, 0, 0, 0)).2.2.2

/-- A concrete event: one neutron from the light fragment, none from the heavy, one photon from the
heavy, one pre-fission neutron. -/
def demoView : PView where
  light := ⟨104, 42, 25 / 2, 7 / 2, -1, 101, 100, 1, 0, (1, 2, 3), (1, 2, 3)⟩
  heavy := ⟨147, 56, 10, 4, 1, 70, 70, 0, 1, (-1, -2, -3), (-1, -2, -3)⟩
  nuPre := 1
  cmN := listGetters [(1, 0, 0, 3 / 2)]
  labN := listGetters [(0, 1, 0, 2)]
  phot := listGetters [(0, 0, 1, 1 / 3)]
  age := fun _ => 1 / 300000000
  preN := listGetters [(0, 0, -1, 5)]

/-- Its content. -/
def demoContent : EvC where
  light := ⟨104, 42, 25 / 2, 7 / 2, -1, 101, 100, (1, 2, 3), (1, 2, 3),
    [(⟨1, 0, 0, 3 / 2⟩, ⟨0, 1, 0, 2⟩)], []⟩
  heavy := ⟨147, 56, 10, 4, 1, 70, 70, (-1, -2, -3), (-1, -2, -3), [],
    [(⟨0, 0, 1, 1 / 3⟩, 1 / 300000000)]⟩
  pren := [⟨0, 0, -1, 5⟩]

theorem demo_shows : Shows demoView demoContent := by
  refine ⟨⟨rfl, rfl, rfl, rfl, rfl, rfl, rfl, rfl, rfl, rfl, rfl⟩,
    ⟨rfl, rfl, rfl, rfl, rfl, rfl, rfl, rfl, rfl, rfl, rfl⟩, rfl, ?_, ?_, ?_, ?_, ?_⟩ <;>
  · intro i h
    simp [demoContent] at h
    subst h
    simp [demoView, listGetters, demoContent]

example : readHistory none (rankFile 0 92238 8 (-1) [demoView])
    = .ok (⟨92238, 8, -1⟩,
      [{ a := 104, z := 42, xe := 25 / 2, j := 7 / 2, p := -1, ke := 101, kePost := 100,
         nn := 1, ng := 0, npn := 0, pre := (1, 2, 3), post := (1, 2, 3),
         cm := [⟨1, 0, 0, 3 / 2⟩], lab := [⟨0, 1, 0, 2⟩], phot := [], ages := [], pren := [] },
       { a := 147, z := 56, xe := 10, j := 4, p := 1, ke := 70, kePost := 70,
         nn := 0, ng := 1, npn := 1, pre := (-1, -2, -3), post := (-1, -2, -3),
         cm := [], lab := [], phot := [⟨0, 0, 1, 333 / 1000⟩],
         ages := [333333 / 100000000000000], pren := [⟨0, 0, -1, 5⟩] }]) := by
  decide +kernel

example : ∃ e' t' fs, readHistory (some 1) (rankFile 0 92238 8 (-1) [demoView, demoView])
    = .ok (⟨92238, e', t'⟩, fs) ∧ fs.length = 2 := by
  obtain ⟨e', t', fs, h, -, -, hl, -⟩ := C12_history_roundtrip (some 1) 92238 8 (-1)
    [demoView, demoView] [demoContent, demoContent]
    (.cons demo_shows (.cons demo_shows .nil))
  exact ⟨e', t', fs, h, hl⟩

/-! ## Yields file -/

theorem pyFloat_fmtInt (i : Int) : pyFloat (fmtInt i) = .ok (i : ℚ) := by
  have h := pyFloat_parts (ip := natDec i.natAbs) (fp := []) (ex := []) (e := 0) (i < 0)
    (natDec_ne_nil _) (natDec_digits _) (by simp) (by simp) rfl
  have hf : fmtInt i = (if i < 0 then ['-'] else []) ++ (natDec i.natAbs ++ (dotted [] ++ [])) := by
    unfold fmtInt dotted
    by_cases hi : i < 0 <;> simp [hi]
  rw [hf, h, List.append_nil, decVal_natDec]
  congr 1
  have : ((i.natAbs : Nat) : ℚ) = |(i : ℚ)| := by
    rw [← Int.cast_abs, Int.abs_eq_natAbs]; simp
  rw [this]
  split_ifs with hi
  · have : (i : ℚ) < 0 := by exact_mod_cast hi
    rw [abs_of_neg this]; simp
  · have : (0 : ℚ) ≤ i := by exact_mod_cast (not_lt.mp hi)
    rw [abs_of_nonneg this]; simp

/-- What a faithful reader returns for a row of the yields file. -/
def ReadsYield (f : YFrag) (row : List ℚ) : Prop :=
  ∃ ke xe j px py pz, row = [(f.z : ℚ), (f.a : ℚ), ke, xe, j, (f.parity : ℚ), px, py, pz] ∧
    Sig6 f.ke ke ∧ Sig6 f.xe xe ∧ Sig6 f.spin j ∧ Sig6 f.px px ∧ Sig6 f.py py ∧ Sig6 f.pz pz

/-- Tokens of a yields row. -/
def yToks (f : YFrag) : List (List Char) :=
  [fmtInt f.z, fmtInt f.a, fmtG f.ke, fmtG f.xe, fmtG f.spin, fmtInt f.parity, fmtG f.px, fmtG f.py,
   fmtG f.pz]

theorem isTok_yToks (f : YFrag) : ∀ t ∈ yToks f, IsTok t := by
  intro t ht
  simp only [yToks, List.mem_cons, List.not_mem_nil, or_false] at ht
  rcases ht with rfl | rfl | rfl | rfl | rfl | rfl | rfl | rfl | rfl <;>
    first | exact isTok_fmtInt _ | exact isTok_fmtG _

theorem yieldRow_eq (f : YFrag) : yieldRow f = spaced (yToks f) ++ ['\n'] := by
  simp [yieldRow, spaced, yToks]

/-- The row read back. -/
def rYield (f : YFrag) : List ℚ :=
  [(f.z : ℚ), (f.a : ℚ), gVal f.ke, gVal f.xe, gVal f.spin, (f.parity : ℚ), gVal f.px, gVal f.py,
   gVal f.pz]

theorem loadRows_rows (fs : List YFrag) :
    loadRows (fs.map (fun f => spaced (yToks f) ++ ['\n'])) = .ok (fs.map rYield) := by
  induction fs with
  | nil => rfl
  | cons f fs ih =>
    rw [List.map_cons, loadRows, split_post _ (isTok_yToks f), ih]
    have : floats (yToks f) = .ok (rYield f) := by
      simp only [yToks, floats, pyFloat_fmtInt, pyFloat_fmtG, Res.bind_ok, Res.pure_eq, rYield]
    rw [this]
    simp [yToks]

/-- **C13.**  Every yields file written by `cgmfYields` is read back by the toolkit: one row per
fragment, light at even and heavy at odd positions, charge, mass and parity exact, the rest to six
significant digits, for any number of events and any limit. -/
theorem C13_yields_roundtrip (nev : Option Nat) (evs : List (YFrag × YFrag)) :
    ∃ rows, readYields nev (yieldsFile evs) = .ok rows ∧
      rows.length = 2 * (kept nev evs).length ∧
      List.Forall₂ ReadsYield ((kept nev evs).map Prod.fst) (evens rows) ∧
      List.Forall₂ ReadsYield ((kept nev evs).map Prod.snd) (odds rows) := by
  have hrd : ∀ f : YFrag, ReadsYield f (rYield f) := fun f =>
    ⟨_, _, _, _, _, _, rfl, sig6_gVal _, sig6_gVal _, sig6_gVal _, sig6_gVal _, sig6_gVal _,
      sig6_gVal _⟩
  have hfile : yieldsFile evs = ((evs.flatMap (fun e => [e.1, e.2])).map
      (fun f => spaced (yToks f))).flatMap (fun l => l ++ ['\n']) := by
    rw [List.flatMap_map, List.flatMap_assoc]
    apply List.flatMap_congr
    intro e _
    simp [yieldRow_eq]
  have hl := fileLines_flatMap ((evs.flatMap (fun e => [e.1, e.2])).map (fun f => spaced (yToks f)))
    (by
      intro l hl
      simp only [List.mem_map] at hl
      obtain ⟨f, _, rfl⟩ := hl
      exact spaced_no_newline _ (isTok_yToks f))
  rw [List.map_map] at hl
  have hrows : ∀ es : List (YFrag × YFrag), (es.flatMap (fun e => [e.1, e.2])).map rYield
      = es.flatMap (fun e => [rYield e.1, rYield e.2]) := by
    intro es; rw [List.map_flatMap]; rfl
  have hread : readYields nev (yieldsFile evs)
      = .ok ((kept nev evs).flatMap (fun e => [rYield e.1, rYield e.2])) := by
    unfold readYields
    rw [hfile, hl]
    have := loadRows_rows (evs.flatMap (fun e => [e.1, e.2]))
    simp only [Function.comp_def]
    rw [this, hrows]
    simp only [Res.bind_ok, Res.pure_eq]
    cases nev with
    | none => rfl
    | some n =>
      simp only [kept]
      congr 1
      clear hfile hl hrows this
      induction evs generalizing n with
      | nil => simp
      | cons e es ih =>
        cases n with
        | zero => simp
        | succ n => simpa [Nat.mul_succ] using ih n
  refine ⟨_, hread, ?_, ?_, ?_⟩
  · induction kept nev evs with
    | nil => rfl
    | cons a l ih => simp [ih]; ring
  · rw [(evens_odds_flatMap _ _ _).1]
    induction kept nev evs with
    | nil => exact .nil
    | cons a l ih => exact .cons (hrd _) ih
  · rw [(evens_odds_flatMap _ _ _).2]
    induction kept nev evs with
    | nil => exact .nil
    | cons a l ih => exact .cons (hrd _) ih

example : readYields (some 1) (yieldsFile
    [(⟨42, 104, 101, 25 / 2, 7 / 2, -1, 1 / 3, 0, 0⟩, ⟨56, 147, 70, 10, 4, 1, -1 / 3, 0, 0⟩),
     (⟨42, 104, 101, 25 / 2, 7 / 2, -1, 1 / 3, 0, 0⟩, ⟨56, 147, 70, 10, 4, 1, -1 / 3, 0, 0⟩)])
    = .ok [[42, 104, 101, 25 / 2, 7 / 2, -1, 333333 / 1000000, 0, 0],
           [56, 147, 70, 10, 4, 1, -333333 / 1000000, 0, 0]] := by
  decide +kernel

/-! ## Loading -/

theorem allSame_iff (l : List Nat) : allSame l = true ↔ ∀ a ∈ l, ∀ b ∈ l, a = b := by
  cases l with
  | nil => simp [allSame]
  | cons a l =>
    simp only [allSame, List.all_eq_true, beq_iff_eq]
    constructor
    · intro h x hx y hy
      have : ∀ z ∈ a :: l, z = a := by
        intro z hz
        rcases List.mem_cons.mp hz with rfl | hz
        · rfl
        · exact h z hz
      rw [this x hx, this y hy]
    · intro h x hx
      exact h x (by simp [hx]) a (by simp)

theorem objShape_ok (lens inner : List Nat) (h2 : 2 ≤ lens.length) :
    dims2 (objShape lens inner) = (1, lens.length) ↔ ¬ ∀ a ∈ lens, ∀ b ∈ lens, a = b := by
  rw [← allSame_iff]
  cases lens with
  | nil => simp at h2
  | cons k l =>
    simp only [objShape]
    by_cases hs : allSame (k :: l) = true
    · simp only [hs, if_true, dims2, not_true_eq_false, iff_false, Prod.mk.injEq]
      intro h; omega
    · simp [hs, dims2]

/-- **C64.**  A history file written by the driver can be loaded by the toolkit exactly if it contains
an event and the fragments do not all have the same number of neutrons nor all the same number of
photons: otherwise `numpy` builds rectangular arrays and the final stacking raises.  (The property a
user relies on, "every file can be loaded", is therefore false.) -/
theorem C64_loadable_iff (zaid : Int) (einc w : ℚ) (views : List PView) :
    (∃ r, loadHistories none (rankFile 0 zaid einc w views) = .ok r) ↔
      views ≠ [] ∧
      (¬ ∀ f ∈ views.flatMap (fun v => [v.light, v.heavy]),
          ∀ g ∈ views.flatMap (fun v => [v.light, v.heavy]), f.nu = g.nu) ∧
      (¬ ∀ f ∈ views.flatMap (fun v => [v.light, v.heavy]),
          ∀ g ∈ views.flatMap (fun v => [v.light, v.heavy]), f.nug = g.nug) := by
  have hmf : ∀ {α : Type} (f : Int → α) (n : Nat) (lo : Int), (mapFrom f lo n).length = n := by
    intro α f n
    induction n with
    | zero => intro lo; rfl
    | succ n ih => intro lo; simp [mapFrom, ih]
  have hag : ∀ (n : Nat) (lo : Int) (age : Int → ℚ), (rAges w age lo n).length = n := by
    intro n lo age; unfold rAges; split_ifs <;> simp [hmf]
  set fs := views.flatMap (rEvent w) with hfs
  set frs := views.flatMap (fun v => [v.light, v.heavy]) with hfrs
  have hcm : fs.map (·.cm.length) = frs.map (·.nu) := by
    simp only [hfs, hfrs, List.map_flatMap]
    exact List.flatMap_congr (fun v _ => by simp [rEvent, rFrag, hmf])
  have hlab : fs.map (·.lab.length) = frs.map (·.nu) := by
    simp only [hfs, hfrs, List.map_flatMap]
    exact List.flatMap_congr (fun v _ => by simp [rEvent, rFrag, hmf])
  have hph : fs.map (·.phot.length) = frs.map (·.nug) := by
    simp only [hfs, hfrs, List.map_flatMap]
    exact List.flatMap_congr (fun v _ => by simp [rEvent, rFrag, hmf])
  have hage : fs.map (·.ages.length) = frs.map (·.nug) := by
    simp only [hfs, hfrs, List.map_flatMap]
    exact List.flatMap_congr (fun v _ => by simp [rEvent, rFrag, hag])
  have hlen : fs.length = frs.length := by
    have := congrArg List.length hcm
    simpa using this
  have hload : loadHistories none (rankFile 0 zaid einc w views)
      = if stackable fs && !fs.isEmpty then .ok (⟨zaid, gVal einc, gVal w⟩, fs) else .exit := by
    unfold loadHistories
    rw [readHistory_file]
    rfl
  have hex : (∃ r, loadHistories none (rankFile 0 zaid einc w views) = .ok r) ↔
      (stackable fs && !fs.isEmpty) = true := by
    rw [hload]
    split_ifs with h
    · simp [h]
    · simp [h]
  rw [hex]
  cases hv : views with
  | nil => rw [hv] at hfs; simp [hfs]
  | cons v vs =>
    have h2 : 2 ≤ frs.length := by rw [hfrs, hv]; simp
    have h2' : 2 ≤ fs.length := by omega
    have hpre : ¬ ∀ a ∈ fs.map (·.pren.length), ∀ b ∈ fs.map (·.pren.length), a = b := by
      intro h
      have hp : (rPre v).length ≠ 0 := by
        unfold rPre; split_ifs with hp
        · rw [hmf]; omega
        · simp
      have := h 0 (by rw [hfs, hv]; simp [rEvent, rFrag]) (rPre v).length
        (by rw [hfs, hv]; simp [rEvent, rFrag])
      exact hp this.symm
    have hne : fs.isEmpty = false := by
      cases hfsc : fs with
      | nil => rw [hfsc] at h2'; simp at h2'
      | cons a l => rfl
    have key : ∀ (l inner : List Nat), l.length = fs.length →
        ((dims2 (objShape l inner) == (1, fs.length)) = true ↔ ¬ ∀ a ∈ l, ∀ b ∈ l, a = b) := by
      intro l inner hl
      have := objShape_ok l inner (by omega)
      rw [hl] at this
      rw [beq_iff_eq]; exact this
    have k1 := fun inner => key (frs.map (·.nu)) inner (by simp [hlen])
    have k2 := fun inner => key (frs.map (·.nug)) inner (by simp [hlen])
    have k3 := fun inner => key (fs.map (·.pren.length)) inner (by simp)
    have hmem : ∀ (g : PFrag → Nat), (∀ a ∈ frs.map g, ∀ b ∈ frs.map g, a = b) ↔
        ∀ f ∈ frs, ∀ f' ∈ frs, g f = g f' := by
      intro g; simp
    simp only [stackable, columnShapes, List.all_cons, List.all_nil, Bool.and_true,
      Bool.and_eq_true, hcm, hlab, hph, hage, k1, k2, k3, hmem, hpre, not_false_eq_true, and_true, hne,
      Bool.not_false, ne_eq, reduceCtorEq, true_and]
    clear_value fs frs
    generalize (∀ f ∈ frs, ∀ f' ∈ frs, f.nu = f'.nu) = P
    generalize (∀ f ∈ frs, ∀ f' ∈ frs, f.nug = f'.nug) = Q
    constructor
    · intro h; exact ⟨h.1, h.2.2.1⟩
    · intro h; exact ⟨h.1, h.1, h.2, h.2, h.2, h.1, h.1⟩

/-- The property "every history file can be loaded" is refuted by a one-event file in which both
fragments emit one neutron. -/
theorem C64_unloadable : ¬ ∀ (zaid : Int) (einc w : ℚ) (views : List PView), views ≠ [] →
    ∃ r, loadHistories none (rankFile 0 zaid einc w views) = .ok r := by
  intro h
  have := h 98252 0 0
    [{ demoView with heavy := { demoView.heavy with nu := 1 } }] (by simp)
  rw [C64_loadable_iff] at this
  exact this.2.1 (by simp [demoView])

example : ∃ r, loadHistories none (rankFile 0 98252 0 0 [demoView]) = .ok r := by
  rw [C64_loadable_iff]
  simp [demoView]

end CGMF.Props
