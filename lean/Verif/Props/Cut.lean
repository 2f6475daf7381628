import Verif.Proofs.Cut
import Verif.Props.History

/-!
# C119: a history file that ends too early

The driver writes the file as it goes; a job that is killed leaves the file cut at any character.
-/

namespace CGMF.Props

open CGMF CGMF.Text CGMF.Printer CGMF.Parser CGMF.Spec CGMF.History

theorem evens_odds_length {α : Type} : ∀ l : List α, (evens l).length = (l.length + 1) / 2 ∧ (odds l).length = l.length / 2
  | [] => ⟨by simp [evens], by simp [odds]⟩
  | [_] => ⟨by simp [evens], by simp [odds]⟩
  | a :: b :: l => by
    have := evens_odds_length l
    simp only [evens, odds, List.length_cons, this.1, this.2]
    omega

theorem perEvent_even {α : Type} [Add α] {l : List α} (h : l.length % 2 = 0) :
    perEvent l = .ok ((evens l).zipWith (· + ·) (odds l)) := by
  have := evens_odds_length l
  unfold perEvent npAdd
  rw [if_pos (by omega)]

theorem perEvent_odd {α : Type} [Add α] {l : List α} (h : l.length % 2 = 1) (h1 : l.length ≠ 1) (h3 : l.length ≠ 3) :
    perEvent l = .exit := by
  have := evens_odds_length l
  unfold perEvent npAdd
  rw [if_neg (by omega)]
  split
  · rename_i x b hx
    rw [hx] at this; simp at this; omega
  · rename_i hx _
    rw [hx] at this; simp at this; omega
  · rfl

/-- Reading succeeded: what was stored. -/
theorem openHistories_ok {nev : Option Nat} {text : List Char} {H : PyHist} (h : openHistories nev text = .ok H) :
    readHistory nev text = .ok (H.header, H.frags) ∧ stackable H.frags = true ∧ H.frags ≠ [] ∧
      perEvent (H.frags.map (·.nn)) = .ok H.nutot ∧ perEvent (H.frags.map (·.ng)) = .ok H.nugtot ∧
      perEvent (H.frags.map (·.ke)) = .ok H.tkePre ∧ perEvent (H.frags.map (·.kePost)) = .ok H.tkePost ∧
      perEvent (H.frags.map (·.xe)) = .ok H.txe ∧ H.numberEvents = H.frags.length / 2 := by
  unfold openHistories at h
  obtain ⟨r, h1, h⟩ := Res.bind_eq_ok.mp h
  obtain ⟨nu, h2, h⟩ := Res.bind_eq_ok.mp h
  obtain ⟨nug, h3, h⟩ := Res.bind_eq_ok.mp h
  obtain ⟨pre, h4, h⟩ := Res.bind_eq_ok.mp h
  obtain ⟨post, h5, h⟩ := Res.bind_eq_ok.mp h
  obtain ⟨txe, h6, h⟩ := Res.bind_eq_ok.mp h
  simp only [Res.pure_eq, Res.ok.injEq] at h
  subst h
  unfold loadHistories at h1
  obtain ⟨r', h7, h1⟩ := Res.bind_eq_ok.mp h1
  split_ifs at h1 with h8
  cases h1
  simp only [Bool.and_eq_true, Bool.not_eq_true', List.isEmpty_eq_false_iff] at h8
  exact ⟨h7, h8.1, h8.2, h2, h3, h4, h5, h6, rfl⟩

/-- The loaded fragments decide everything. -/
theorem openHistories_cases (nev : Option Nat) (text : List Char) (h : PyHeader) (fs : List PyFrag)
    (hr : readHistory nev text = .ok (h, fs)) :
    openHistories nev text = .exit ∨ ∃ H, openHistories nev text = .ok H := by
  have hp : ∀ {α : Type} [Add α] (l : List α), perEvent l = .exit ∨ ∃ x, perEvent l = .ok x := by
    intro α _ l
    unfold perEvent npAdd
    split_ifs
    · exact Or.inr ⟨_, rfl⟩
    · split
      · exact Or.inr ⟨_, rfl⟩
      · exact Or.inr ⟨_, rfl⟩
      · exact Or.inl rfl
  unfold openHistories loadHistories
  rw [hr, Res.bind_ok]
  split_ifs
  · rw [Res.bind_ok]
    rcases hp (fs.map (·.nn)) with e | ⟨x1, e⟩
    · left; simp only [e]; rfl
    simp only [e, Res.bind_ok]
    rcases hp (fs.map (·.ng)) with e | ⟨x2, e⟩
    · left; simp only [e]; rfl
    simp only [e, Res.bind_ok]
    rcases hp (fs.map (·.ke)) with e | ⟨x3, e⟩
    · left; simp only [e]; rfl
    simp only [e, Res.bind_ok]
    rcases hp (fs.map (·.kePost)) with e | ⟨x4, e⟩
    · left; simp only [e]; rfl
    simp only [e, Res.bind_ok]
    rcases hp (fs.map (·.xe)) with e | ⟨x5, e⟩
    · left; simp only [e]; rfl
    simp only [e, Res.bind_ok]
    right; exact ⟨_, rfl⟩
  · left; rfl

theorem stackable_pren {fs : List PyFrag} (h : stackable fs = true) (h1 : fs.length = 1) :
    ∀ f ∈ fs, f.pren.length = 1 := by
  obtain ⟨f, rfl⟩ := List.length_eq_one_iff.mp h1
  simp only [stackable, columnShapes, List.all_cons, Bool.and_eq_true] at h
  have := h.2.2.2.2.2.2.2.1
  simp only [List.map_cons, List.map_nil, objShape, allSame, List.all_nil, if_true, List.length_singleton, ite_self, dims2,
    beq_iff_eq, Prod.mk.injEq, true_and] at this
  intro g hg
  simp at hg
  subst hg
  simpa [dims2] using this

/-- **C119 (partial).** A history file cut at any character is never read as something else: loading it raises, or
yields the first fragments of the complete file, all numbers right except perhaps the very last one; the fragments
are an even number unless they are three.  (Missing: the last number may be wrong, `C119_wrong_number`, and three
fragments are paired wrongly, `C119_pairing`.) -/
theorem C119_cut_partial (zaid : Int) (einc w : ℚ) (views : List PView) :
    ∃ h full, readHistory none (rankFile 0 zaid einc w views) = .ok (h, full) ∧
      ∀ nev k, openHistories nev ((rankFile 0 zaid einc w views).take k) = .exit ∨
        ∃ H, openHistories nev ((rankFile 0 zaid einc w views).take k) = .ok H ∧ H.header = h ∧ H.frags ≠ [] ∧
          FirstOf (decide (w < 0)) H.frags full ∧ (H.frags.length % 2 = 0 ∨ H.frags.length = 3) := by
  refine ⟨_, _, readHistory_file none zaid einc w views, fun nev k => ?_⟩
  have key : ∀ h fs, readHistory nev ((rankFile 0 zaid einc w views).take k) = .ok (h, fs) →
      (fs = [] ∨ (h = ⟨zaid, gVal einc, gVal w⟩ ∧ FirstOf (decide (w < 0)) fs (views.flatMap (rEvent w)))) →
      openHistories nev ((rankFile 0 zaid einc w views).take k) = .exit ∨
        ∃ H, openHistories nev ((rankFile 0 zaid einc w views).take k) = .ok H ∧ H.header = ⟨zaid, gVal einc, gVal w⟩ ∧
          H.frags ≠ [] ∧ FirstOf (decide (w < 0)) H.frags (views.flatMap (rEvent w)) ∧
            (H.frags.length % 2 = 0 ∨ H.frags.length = 3) := by
    intro h fs hr hfs
    rcases openHistories_cases nev _ h fs hr with e | ⟨H, e⟩
    · exact Or.inl e
    · right
      obtain ⟨h1, h2, h3, h4, -⟩ := openHistories_ok e
      rw [hr] at h1
      obtain ⟨rfl, rfl⟩ := Prod.mk.inj (Res.ok.inj h1)
      rcases hfs with hfs | ⟨hh, hfs⟩
      · exact absurd hfs h3
      refine ⟨H, e, hh, h3, hfs, ?_⟩
      by_contra hc
      push Not at hc
      have ho : (H.frags.map (·.nn)).length % 2 = 1 := by rw [List.length_map]; omega
      by_cases h1' : H.frags.length = 1
      · -- one light fragment: the columns cannot be stacked
        obtain ⟨f, hf⟩ := List.length_eq_one_iff.mp h1'
        have hp := stackable_pren h2 h1' f (by simp [hf])
        cases views with
        | nil =>
          obtain ⟨n, h | ⟨g, y, hg, -⟩⟩ := hfs
          · simp at h; exact h3 h
          · simp at hg
        | cons v vs =>
          have hfull : (v :: vs).flatMap (rEvent w) = rFrag w v v.light 0 0 0 [] ::
            (rFrag w v v.heavy v.light.nu v.light.nug v.nuPre (rPre v) :: vs.flatMap (rEvent w)) := by
            simp [rEvent]
          rw [hfull] at hfs
          have hpl : ∀ t y, (setLast t y (rFrag w v v.light 0 0 0 [])).pren = [] := by
            intro t y
            unfold setLast
            split_ifs <;> simp_all [rFrag]
          obtain ⟨n, h | ⟨g, y, hg, h⟩⟩ := hfs
          · cases n with
            | zero => simp at h; exact h3 h
            | succ n =>
              rw [hf] at h
              simp only [List.take_succ_cons, List.cons.injEq] at h
              rw [h.1] at hp
              simp [rFrag] at hp
          · cases n with
            | zero =>
              simp at hg h
              rw [hf] at h
              simp only [List.cons.injEq, and_true] at h
              rw [h, ← hg, hpl] at hp
              simp at hp
            | succ n =>
              rw [hf] at h
              simp at h
      · rw [perEvent_odd ho (by simpa using h1') (by simpa using hc.2)] at h4
        cases h4
  rcases readHistory_cut nev zaid einc w views k with e | ⟨h, e⟩ | ⟨fs, e, hfs⟩
  · left
    unfold openHistories loadHistories
    rw [e]; rfl
  · exact key h [] e (Or.inl rfl)
  · exact key _ fs e (Or.inr ⟨rfl, hfs⟩)

/-- C119: a file cut between two events is the file of the events before the cut, so everything said about complete
files (C12, C64) holds for it. -/
theorem C119_between (zaid : Int) (einc w : ℚ) (views : List PView) (n : Nat) :
    ∃ k, (rankFile 0 zaid einc w views).take k = rankFile 0 zaid einc w (views.take n) := by
  refine ⟨(rankFile 0 zaid einc w (views.take n)).length, ?_⟩
  have : rankFile 0 zaid einc w views
      = rankFile 0 zaid einc w (views.take n) ++ (views.drop n).flatMap (printEvent w) := by
    simp only [rankFile, if_true, List.append_assoc]
    rw [← List.flatMap_append, List.take_append_drop]
  rw [this, List.take_left']
  rfl

theorem getElem?_evens_odds {α : Type} : ∀ (l : List α) (i : Nat), (evens l)[i]? = l[2 * i]? ∧ (odds l)[i]? = l[2 * i + 1]?
  | [], i => by simp [evens, odds]
  | [a], i => by cases i <;> simp [evens, odds]
  | a :: b :: l, i => by
    cases i with
    | zero => simp [evens, odds]
    | succ i =>
      have := getElem?_evens_odds l i
      simp only [evens, odds, List.getElem?_cons_succ, this.1, this.2]
      rw [show 2 * (i + 1) = 2 * i + 1 + 1 by ring, List.getElem?_cons_succ, List.getElem?_cons_succ]
      simp

theorem perEvent_at {α : Type} [Add α] {l xs : List α} (h : l.length % 2 = 0) (hx : perEvent l = .ok xs) :
    xs.length = l.length / 2 ∧ ∀ (i : Nat) (a b : α), l[2 * i]? = some a → l[2 * i + 1]? = some b → xs[i]? = some (a + b) := by
  rw [perEvent_even h] at hx
  cases hx
  have hl := evens_odds_length l
  refine ⟨by rw [List.length_zipWith]; omega, fun i a b ha hb => ?_⟩
  rw [List.getElem?_zipWith, (getElem?_evens_odds l i).1, (getElem?_evens_odds l i).2, ha, hb]

/-- C119: whenever an even number of fragments was loaded, from whatever file, there is one entry per event in the
lists of totals, and it belongs to the two fragments of that event. -/
theorem C119_totals (nev : Option Nat) (text : List Char) (H : PyHist) (h : openHistories nev text = .ok H)
    (he : H.frags.length % 2 = 0) :
    2 * H.numberEvents = H.frags.length ∧ H.nutot.length = H.numberEvents ∧ H.nugtot.length = H.numberEvents ∧
      H.tkePre.length = H.numberEvents ∧ H.tkePost.length = H.numberEvents ∧ H.txe.length = H.numberEvents ∧
      ∀ (i : Nat) (l r : PyFrag), H.frags[2 * i]? = some l → H.frags[2 * i + 1]? = some r →
        H.nutot[i]? = some (l.nn + r.nn) ∧ H.nugtot[i]? = some (l.ng + r.ng) ∧ H.tkePre[i]? = some (l.ke + r.ke) ∧
          H.tkePost[i]? = some (l.kePost + r.kePost) ∧ H.txe[i]? = some (l.xe + r.xe) := by
  obtain ⟨-, -, -, h1, h2, h3, h4, h5, h6⟩ := openHistories_ok h
  have hm : ∀ {α : Type} (g : PyFrag → α), (H.frags.map g).length % 2 = 0 := by intro α g; rwa [List.length_map]
  have p1 := perEvent_at (hm _) h1
  have p2 := perEvent_at (hm _) h2
  have p3 := perEvent_at (hm _) h3
  have p4 := perEvent_at (hm _) h4
  have p5 := perEvent_at (hm _) h5
  simp only [List.length_map] at p1 p2 p3 p4 p5
  refine ⟨by omega, by omega, by omega, by omega, by omega, by omega, fun i l r hl hr => ?_⟩
  have e : ∀ {α : Type} (g : PyFrag → α) (j : Nat) (f : PyFrag), H.frags[j]? = some f → (H.frags.map g)[j]? = some (g f) := by
    intro α g j f hj; rw [List.getElem?_map, hj]; rfl
  exact ⟨p1.2 i _ _ (e _ _ _ hl) (e _ _ _ hr), p2.2 i _ _ (e _ _ _ hl) (e _ _ _ hr), p3.2 i _ _ (e _ _ _ hl) (e _ _ _ hr),
    p4.2 i _ _ (e _ _ _ hl) (e _ _ _ hr), p5.2 i _ _ (e _ _ _ hl) (e _ _ _ hr)⟩

/-- C119: every complete file that can be loaded at all (C64) is loaded with all its events. -/
theorem C119_complete (zaid : Int) (einc w : ℚ) (views : List PView)
    (hl : ∃ r, loadHistories none (rankFile 0 zaid einc w views) = .ok r) :
    ∃ H, openHistories none (rankFile 0 zaid einc w views) = .ok H ∧ H.numberEvents = views.length ∧
      H.nutot = views.map (fun v => ((v.light.nu + v.heavy.nu : Nat) : Int)) ∧
      H.nugtot = views.map (fun v => ((v.light.nug + v.heavy.nug : Nat) : Int)) := by
  obtain ⟨r, hl⟩ := hl
  have hr : r.2 = views.flatMap (rEvent w) := by
    unfold loadHistories at hl
    rw [readHistory_file, Res.bind_ok] at hl
    split_ifs at hl
    cases hl; rfl
  have hlen : r.2.length = 2 * views.length := by
    rw [hr]
    clear hl hr
    induction views with
    | nil => rfl
    | cons v vs ih => simp [rEvent, ih]; ring
  have hm : ∀ {α : Type} [Add α] (g : PyFrag → α), perEvent (r.2.map g)
      = .ok ((evens (r.2.map g)).zipWith (· + ·) (odds (r.2.map g))) := fun g => perEvent_even (by
    rw [List.length_map]; omega)
  unfold openHistories
  rw [hl, Res.bind_ok]
  simp only [hm, Res.bind_ok, Res.pure_eq]
  refine ⟨_, rfl, by simp only; omega, ?_, ?_⟩
  · have : r.2.map (·.nn) = views.flatMap (fun v => [(v.light.nu : Int), (v.heavy.nu : Int)]) := by
      rw [hr, List.map_flatMap]; exact List.flatMap_congr (fun v _ => by simp [rEvent, rFrag])
    simp only [this, (evens_odds_flatMap _ _ _).1, (evens_odds_flatMap _ _ _).2]
    rw [List.zipWith_map_left, List.zipWith_map_right, List.zipWith_self]
    simp
  · have : r.2.map (·.ng) = views.flatMap (fun v => [(v.light.nug : Int), (v.heavy.nug : Int)]) := by
      rw [hr, List.map_flatMap]; exact List.flatMap_congr (fun v _ => by simp [rEvent, rFrag])
    simp only [this, (evens_odds_flatMap _ _ _).1, (evens_odds_flatMap _ _ _).2]
    rw [List.zipWith_map_left, List.zipWith_map_right, List.zipWith_self]
    simp

/-! ## What can go wrong -/

theorem npAdd_two_one {α : Type} [Add α] (a b c : α) : perEvent [a, b, c] = .ok [a + b, c + b] := by
  simp [perEvent, evens, odds, npAdd]

theorem open_three {nev : Option Nat} {text : List Char} {h : PyHeader} {a b c : PyFrag}
    (hr : readHistory nev text = .ok (h, [a, b, c])) (hst : stackable [a, b, c] = true) :
    openHistories nev text = .ok ⟨h, [a, b, c], 1, [a.nn + b.nn, c.nn + b.nn], [a.ng + b.ng, c.ng + b.ng],
      [a.ke + b.ke, c.ke + b.ke], [a.kePost + b.kePost, c.kePost + b.kePost], [a.xe + b.xe, c.xe + b.xe]⟩ := by
  unfold openHistories loadHistories
  rw [hr, Res.bind_ok]
  rw [if_pos (by rw [hst]; rfl), Res.bind_ok]
  simp only [List.map_cons, List.map_nil, npAdd_two_one, Res.bind_ok, Res.pure_eq, List.length_cons, List.length_nil]

/-- The characters of the light fragment of an event. -/
def lightText (w : ℚ) (v : PView) : List Char :=
  fragLine v.light ['0'] ++ momLine v.light ++ particleLine (vec4 v.cmN) 0 v.light.nu
    ++ particleLine (vec4 v.labN) 0 v.light.nu ++ particleLine (photonItem w v.phot v.age) 0 v.light.nug

/-- C119, what is wrong: a file cut after the light fragment of the second event is loaded without complaint whenever
the three fragments do not all have as many neutrons nor all as many photons; the lists of totals then have two entries
though there is one event, and the second adds the light fragment of the second event to the heavy fragment of the
first. -/
theorem C119_pairing (zaid : Int) (einc w : ℚ) (v1 v2 : PView) (vs : List PView)
    (hn : ¬ (v1.light.nu = v1.heavy.nu ∧ v1.heavy.nu = v2.light.nu))
    (hg : ¬ (v1.light.nug = v1.heavy.nug ∧ v1.heavy.nug = v2.light.nug)) :
    ∃ k H, openHistories none ((rankFile 0 zaid einc w (v1 :: v2 :: vs)).take k) = .ok H ∧ H.numberEvents = 1 ∧
      H.nutot = [((v1.light.nu + v1.heavy.nu : Nat) : Int), ((v2.light.nu + v1.heavy.nu : Nat) : Int)] ∧
      ∃ l1 h1 l2, H.frags = [l1, h1, l2] ∧ H.tkePre = [l1.ke + h1.ke, l2.ke + h1.ke] ∧
        Rounded 3 v1.light.ke l1.ke ∧ Rounded 3 v1.heavy.ke h1.ke ∧ Rounded 3 v2.light.ke l2.ke := by
  obtain ⟨l, hl, -, hnl⟩ := rankFile_lines zaid einc w (v1 :: v2 :: vs)
  have hz : fmtInt 0 = ['0'] := by decide
  set Ls := evLines w v1 ++ fragLines w v2 v2.light ['0'] 0 0 with hLs
  have hlt : lightText w v2 = (fragLines w v2 v2.light ['0'] 0 0).flatMap (fun l => l ++ ['\n']) := by
    simp only [lightText, fragLines, List.flatMap_append, List.flatMap_cons,
      List.flatMap_nil, fragLine_eq, momLine_eq, particleLine_eq _ _ (vec4_spaced _),
      particleLine_eq _ (phTok w v2.phot v2.age) (photonItem_spaced w v2.phot v2.age),
      List.append_assoc, List.append_nil]
  have htext : ∃ k, (rankFile 0 zaid einc w (v1 :: v2 :: vs)).take k = (l :: Ls).flatMap (fun l => l ++ ['\n']) := by
    refine ⟨(headerLine zaid einc w ++ (printEvent w v1 ++ lightText w v2)).length, ?_⟩
    have h2 : ∃ r, printEvent w v2 = lightText w v2 ++ r := ⟨_, by
      simp only [printEvent, lightText, List.append_assoc]; rfl⟩
    obtain ⟨r, h2⟩ := h2
    have : rankFile 0 zaid einc w (v1 :: v2 :: vs)
        = (headerLine zaid einc w ++ (printEvent w v1 ++ lightText w v2)) ++ (r ++ vs.flatMap (printEvent w)) := by
      simp only [rankFile, if_true, List.flatMap_cons, h2, List.append_assoc]
    rw [this, List.take_left' rfl, hlt, printEvent_eq, hl, hLs, List.flatMap_cons, List.flatMap_append]
  obtain ⟨k, hk⟩ := htext
  have hlines := fileLines_flatMap (l :: Ls) (by
    intro x hx
    apply hnl x
    simp only [List.mem_cons, hLs, List.mem_append, List.flatMap_cons] at hx ⊢
    rcases hx with h | h | h
    · exact Or.inl h
    · exact Or.inr (Or.inl h)
    · refine Or.inr (Or.inr (Or.inl ?_))
      simp only [evLines, List.mem_append]
      exact Or.inl h)
  have hread : readHistory none ((rankFile 0 zaid einc w (v1 :: v2 :: vs)).take k)
      = .ok (⟨zaid, gVal einc, gVal w⟩, rEvent w v1 ++ [rFrag w v2 v2.light 0 0 0 []]) := by
    unfold readHistory
    rw [hk, hlines]
    simp only [List.map_cons, readline]
    rw [← hl, readHeader_line]
    simp only [Res.bind_ok, Option.map_none]
    have ht := sig6_neg (sig6_gVal w)
    have hls : Ls.map (fun l => l ++ ['\n']) =
          (preSpaced (fragToks v1.light ['0']) ++ ['\n']) ::
            (nl (fragLines w v1 v1.light ['0'] 0 0).tail ++
              ((preSpaced (fragToks v1.heavy (fmtInt v1.nuPre)) ++ ['\n']) ::
                (nl (fragLines w v1 v1.heavy (fmtInt v1.nuPre) v1.light.nu v1.light.nug).tail ++
                  (nl (pLines (vtok v1.preN) 0 v1.nuPre) ++ ((preSpaced (fragToks v2.light ['0']) ++ ['\n']) ::
                    (nl (fragLines w v2 v2.light ['0'] 0 0).tail ++ [])))))) := by
      rw [hLs, evLines, fragLines_cons w v1 v1.light, fragLines_cons w v1 v1.heavy, fragLines_cons w v2]
      simp [nl]
    obtain ⟨fuel, hf⟩ : ∃ f, (Ls.map (fun l => l ++ ['\n'])).length + 1 = f + 4 := by
      refine ⟨(Ls.map (fun l => l ++ ['\n'])).length - 3, ?_⟩
      have : 3 ≤ (Ls.map (fun l => l ++ ['\n'])).length := by
        rw [hls]; simp; omega
      omega
    have hlim : ∀ c, ¬ limitReached (none : Option Nat) c = true := by simp [limitReached]
    rw [hf, hls, readLoop_line _ _ _ _ _ _ _ (by simp) (hlim _),
      readFragment_lines w (gVal w) ht v1 v1.light 0 ['0'] hz.symm 0 0 true [] _ _ (by rfl)]
    simp only [Res.bind_ok, Bool.not_true]
    rw [readLoop_line _ _ _ _ _ _ _ (by simp) (hlim _),
      readFragment_lines w (gVal w) ht v1 v1.heavy v1.nuPre _ rfl _ _ false (rPre v1) _ _ (readPre_heavy v1 _)]
    simp only [Res.bind_ok, Bool.not_false]
    rw [readLoop_line _ _ _ _ _ _ _ (by simp) (hlim _),
      readFragment_lines w (gVal w) ht v2 v2.light 0 ['0'] hz.symm 0 0 true [] _ _ (by rfl)]
    simp only [Res.bind_ok, Bool.not_true, readLoop_nil, Res.pure_eq]
    rfl
  have hmf : ∀ {α : Type} (f : Int → α) (n : Nat) (lo : Int), (mapFrom f lo n).length = n := by
    intro α f n
    induction n with
    | zero => intro lo; rfl
    | succ n ih => intro lo; simp [mapFrom, ih]
  have hag : ∀ (n : Nat) (lo : Int) (age : Int → ℚ), (rAges w age lo n).length = n := by
    intro n lo age; unfold rAges; split_ifs <;> simp [hmf]
  have hshape : ∀ (a b c : Nat) (inner : List Nat), ¬ (a = b ∧ b = c) → dims2 (objShape [a, b, c] inner) = (1, 3) := by
    intro a b c inner h
    have hs : allSame [a, b, c] = false := by
      simp only [allSame, List.all_cons, List.all_nil, Bool.and_true, Bool.and_eq_false_iff, beq_eq_false_iff_ne]
      by_contra hc
      push Not at hc
      exact h ⟨hc.1.symm, by rw [hc.1, hc.2]⟩
    simp [objShape, hs, dims2]
  have hst : stackable (rEvent w v1 ++ [rFrag w v2 v2.light 0 0 0 []]) = true := by
    have hp : (rPre v1).length ≠ 0 := by
      unfold rPre; split_ifs with hp
      · rw [hmf]; omega
      · simp
    have h1 := fun i => hshape v1.light.nu v1.heavy.nu v2.light.nu i hn
    have h2 := fun i => hshape v1.light.nug v1.heavy.nug v2.light.nug i hg
    have h3 := fun i => hshape 0 (rPre v1).length 0 i (fun h => hp h.1.symm)
    simp [stackable, columnShapes, rEvent, rFrag, hmf, hag, h1, h2, h3]
  refine ⟨k, _, open_three hread hst, rfl, ?_, _, _, _, rfl, rfl, rounded_rv 3 _, rounded_rv 3 _, rounded_rv 3 _⟩
  simp [rFrag]

/-- An event whose last printed number is the age of a photon, 1/300 microsecond. -/
def agedView : PView := { demoView with nuPre := 0 }

/-- The ages of the last fragment. -/
def lastAges (fs : List PyFrag) : List ℚ := (fs.getLast?.map (·.ages)).getD []

/-- C119, what is wrong: the last number of a cut file can be wrong by orders of magnitude without any complaint.  Here
the file ends in `3.33333e-09`, is cut before the `e`, and an age of nanoseconds is loaded as seconds. -/
theorem C119_wrong_number : ∃ k H h full,
    readHistory none (rankFile 0 92238 8 (-1) [agedView]) = .ok (h, full) ∧ lastAges full = [333333 / 100000000000000] ∧
    openHistories none ((rankFile 0 92238 8 (-1) [agedView]).take k) = .ok H ∧ H.frags.length = full.length ∧
    lastAges H.frags = [333333 / 100000] := by
  have h1 : readHistory none (rankFile 0 92238 8 (-1) [agedView])
    = .ok (⟨92238, 8, -1⟩,
      [{ a := 104, z := 42, xe := 25 / 2, j := 7 / 2, p := -1, ke := 101, kePost := 100,
         nn := 1, ng := 0, npn := 0, pre := (1, 2, 3), post := (1, 2, 3),
         cm := [⟨1, 0, 0, 3 / 2⟩], lab := [⟨0, 1, 0, 2⟩], phot := [], ages := [], pren := [] },
       { a := 147, z := 56, xe := 10, j := 4, p := 1, ke := 70, kePost := 70,
         nn := 0, ng := 1, npn := 0, pre := (-1, -2, -3), post := (-1, -2, -3),
         cm := [], lab := [], phot := [⟨0, 0, 1, 333 / 1000⟩],
         ages := [333333 / 100000000000000], pren := [⟨0, 0, 0, 0⟩] }]) := by
    decide +kernel
  have h2 : openHistories none ((rankFile 0 92238 8 (-1) [agedView]).take
      ((rankFile 0 92238 8 (-1) [agedView]).length - 6))
    = .ok ⟨⟨92238, 8, -1⟩,
      [{ a := 104, z := 42, xe := 25 / 2, j := 7 / 2, p := -1, ke := 101, kePost := 100,
         nn := 1, ng := 0, npn := 0, pre := (1, 2, 3), post := (1, 2, 3),
         cm := [⟨1, 0, 0, 3 / 2⟩], lab := [⟨0, 1, 0, 2⟩], phot := [], ages := [], pren := [] },
       { a := 147, z := 56, xe := 10, j := 4, p := 1, ke := 70, kePost := 70,
         nn := 0, ng := 1, npn := 0, pre := (-1, -2, -3), post := (-1, -2, -3),
         cm := [], lab := [], phot := [⟨0, 0, 1, 333 / 1000⟩],
         ages := [333333 / 100000], pren := [⟨0, 0, 0, 0⟩] }], 1, [1], [1], [171], [170], [45 / 2]⟩ := by
    decide +kernel
  exact ⟨_, _, _, _, h1, rfl, h2, rfl, rfl⟩

/-- A cut in the middle of the neutron lines is refused. -/
example : openHistories none ((rankFile 0 92238 8 (-1) [agedView]).take 90) = .exit := by decide +kernel

example : ∃ H, openHistories none (rankFile 0 92238 8 (-1) [agedView]) = .ok H ∧ H.numberEvents = 1 :=
  have h := C119_complete 92238 8 (-1) [agedView] (by rw [C64_loadable_iff]; simp [agedView, demoView])
  ⟨h.choose, h.choose_spec.1, h.choose_spec.2.1⟩

example : ∃ k H, openHistories none ((rankFile 0 92238 8 (-1) [demoView, demoView]).take k) = .ok H ∧
    H.numberEvents = 1 ∧ H.nutot = [1, 1] := by
  obtain ⟨k, H, h1, h2, h3, -⟩ := C119_pairing 92238 8 (-1) demoView demoView [] (by simp [demoView]) (by simp [demoView])
  exact ⟨k, H, h1, h2, h3⟩

example : ∃ k H, openHistories none ((rankFile 0 92238 8 (-1) [agedView]).take k) = .ok H ∧
    H.frags.length % 2 = 0 ∧ 2 * H.numberEvents = H.frags.length := by
  obtain ⟨H', h4, h5, -⟩ := C119_complete 92238 8 (-1) [agedView] (by rw [C64_loadable_iff]; simp [agedView, demoView])
  refine ⟨(rankFile 0 92238 8 (-1) [agedView]).length, H', by rw [List.take_length]; exact h4, ?_, ?_⟩
  all_goals
    have := (openHistories_ok h4).1
    rw [readHistory_file] at this
    have hf := (Prod.mk.inj (Res.ok.inj this)).2
    simp [← hf, rEvent, h5]

end CGMF.Props
