import Verif.Props.Cut
import Verif.Model.Warn

/-!
# C144: the rank files of an interrupted parallel run

Every rank writes a file of its own; a job that is killed leaves each cut at its own place.  The files are joined as those of a complete
run are (C14).
-/

namespace CGMF.Props

open CGMF CGMF.Text CGMF.Printer CGMF.Parser CGMF.Spec CGMF.History

theorem rank_take (ip : Nat) (zaid : Int) (einc w : ℚ) (done more : List PView) (head rest : List Char)
    (h : more.flatMap (printEvent w) = head ++ rest) :
    ∃ k, (rankFile ip zaid einc w (done ++ more)).take k = rankFile ip zaid einc w done ++ head := by
  refine ⟨(rankFile ip zaid einc w done ++ head).length, ?_⟩
  have : rankFile ip zaid einc w (done ++ more) = (rankFile ip zaid einc w done ++ head) ++ rest := by
    simp only [rankFile, List.flatMap_append, h, List.append_assoc]
  rw [this, List.take_left' rfl]

/-- What is left of the files of all ranks: the rank, its events and where the file is cut. -/
def leftOver (zaid : Int) (einc w : ℚ) (ranks : List (Nat × List PView × Nat)) : List Char :=
  ranks.flatMap fun r => (rankFile r.1 zaid einc w r.2.1).take r.2.2

/-- **C144.**  When every rank is stopped between two events, the joined files are the file of the events written, rank by rank: all
of them are read, in order (C12, C119_complete). -/
theorem C144_between (zaid : Int) (einc w : ℚ) (first : List PView) (n : Nat) (others : List (List PView × Nat)) :
    ∃ cuts : List Nat, cuts.length = others.length + 1 ∧
      leftOver zaid einc w (((first, n) :: others).zipIdx.zipWith (fun r c => (r.2, r.1.1, c)) cuts) =
        rankFile 0 zaid einc w (first.take n ++ others.flatMap fun r => r.1.take r.2) := by
  have key : ∀ (rs : List (List PView × Nat)) (i : Nat), ∃ cuts : List Nat, cuts.length = rs.length ∧
      leftOver zaid einc w ((rs.zipIdx (i + 1)).zipWith (fun r c => (r.2, r.1.1, c)) cuts) =
        (rs.flatMap fun r => r.1.take r.2).flatMap (printEvent w) := by
    intro rs
    induction rs with
    | nil => intro i; exact ⟨[], rfl, rfl⟩
    | cons r rs ih =>
      intro i
      obtain ⟨cs, hl, hc⟩ := ih (i + 1)
      obtain ⟨k, hk⟩ := rank_take (i + 1) zaid einc w (r.1.take r.2) (r.1.drop r.2) [] _ rfl
      rw [List.take_append_drop, List.append_nil] at hk
      refine ⟨k :: cs, by simp [hl], ?_⟩
      simp only [List.zipIdx_cons, List.zipWith_cons_cons, leftOver, List.flatMap_cons, List.flatMap_append] at hc ⊢
      rw [hk, hc]
      simp [rankFile]
  obtain ⟨cs, hl, hc⟩ := key others 0
  obtain ⟨k, hk⟩ := rank_take 0 zaid einc w (first.take n) (first.drop n) [] _ rfl
  rw [List.take_append_drop, List.append_nil] at hk
  refine ⟨k :: cs, by simp [hl], ?_⟩
  simp only [List.zipIdx_cons, List.zipWith_cons_cons, leftOver, List.flatMap_cons] at hc ⊢
  rw [hk, hc]
  simp [rankFile]

theorem gVal_zero (x : ℚ) : gVal x = 0 ↔ x = 0 := by
  have h := sig6_gVal x
  unfold Sig6 at h
  constructor
  · intro h0
    rw [h0, zero_sub, abs_neg] at h
    have := abs_nonneg x
    exact abs_eq_zero.mp (by linarith)
  · intro h0
    rw [h0] at h ⊢
    simpa using h

/-- **C144.**  The reader prints no message for a file of complete events in which the masses of the fragments and the pre-fission neutrons
add up to the compound nucleus. -/
theorem C144_silent (zaid : Int) (einc w : ℚ) (views : List PView)
    (hm : ∀ v ∈ views, v.light.a + v.heavy.a + v.nuPre = (zaid - 1000 * zaid.tdiv 1000) + (if einc = 0 then 0 else 1)) :
    ∃ h fs, readHistory none (rankFile 0 zaid einc w views) = .ok (h, fs) ∧ messages (compoundMass h) fs = views.map fun _ => false := by
  refine ⟨_, _, readHistory_file none zaid einc w views, ?_⟩
  have hz := gVal_zero einc
  induction views with
  | nil => rfl
  | cons v vs ih =>
    have h1 := hm v (by simp)
    have := ih (fun v hv => hm v (by simp [hv]))
    simp only [List.flatMap_cons, rEvent, List.cons_append, List.nil_append, messages, List.map_cons]
    simp only at this
    rw [this]
    congr 1
    rw [decide_eq_false_iff_not, not_not]
    simp only [rFrag, compoundMass, hz]
    split_ifs at h1 ⊢ <;> omega

/-! ## Fragments in any order -/

/-- A fragment of an event: the light one or the heavy one. -/
abbrev Piece := PView × Bool

/-- The lines of a fragment of an event without pre-fission neutrons. -/
def pieceLines (w : ℚ) (p : Piece) : List (List Char) :=
  if p.2 then fragLines w p.1 p.1.light ['0'] 0 0 else fragLines w p.1 p.1.heavy ['0'] p.1.light.nu p.1.light.nug

/-- The fragment. -/
def pieceFrag (p : Piece) : PFrag := if p.2 then p.1.light else p.1.heavy

/-- What is read for the fragments, in turn as light and heavy ones. -/
def rPieces (w : ℚ) : Bool → List Piece → List PyFrag
  | _, [] => []
  | b, p :: ps => (if p.2 then rFrag w p.1 p.1.light 0 0 0 (if b then [] else [⟨0, 0, 0, 0⟩])
      else rFrag w p.1 p.1.heavy p.1.light.nu p.1.light.nug 0 (if b then [] else [⟨0, 0, 0, 0⟩])) :: rPieces w (!b) ps

theorem readLoop_pieces (w time : ℚ) (ht : time < 0 ↔ w < 0) : ∀ (ps : List Piece) (fuel c : Nat) (b : Bool), ps.length < fuel →
    readLoop time none fuel c b (nl (ps.flatMap (pieceLines w))) = .ok (rPieces w b ps) := by
  intro ps
  induction ps with
  | nil =>
    intro fuel c b h
    obtain ⟨f, rfl⟩ : ∃ f, fuel = f + 1 := ⟨fuel - 1, by simp at h; omega⟩
    exact readLoop_nil _ _ _ _ _
  | cons p ps ih =>
    intro fuel c b h
    obtain ⟨f, rfl⟩ : ∃ f, fuel = f + 1 := ⟨fuel - 1, by simp at h; omega⟩
    have hz : fmtInt 0 = ['0'] := by decide
    have hp : ∀ rest, readPre b 0 rest = .ok ((if b then [] else [⟨0, 0, 0, 0⟩]), rest) := by
      intro rest; cases b <;> rfl
    have hlim : ¬ limitReached (none : Option Nat) (c + 1) = true := by simp [limitReached]
    have step : ∀ (fr : PFrag) (lon log : Int), readLoop time none (f + 1) c b (nl (fragLines w p.1 fr ['0'] lon log ++ ps.flatMap (pieceLines w))) =
        .ok (rFrag w p.1 fr lon log 0 (if b then [] else [⟨0, 0, 0, 0⟩]) :: rPieces w (!b) ps) := by
      intro fr lon log
      have e : nl (fragLines w p.1 fr ['0'] lon log ++ ps.flatMap (pieceLines w)) =
          (preSpaced (fragToks fr ['0']) ++ ['\n']) :: (nl (fragLines w p.1 fr ['0'] lon log).tail ++ nl (ps.flatMap (pieceLines w))) := by
        rw [fragLines_cons]
        simp [nl]
      rw [e, readLoop_line _ _ _ _ _ _ _ (by simp) hlim, readFragment_lines w time ht p.1 fr 0 ['0'] hz.symm lon log b _ _ _ (hp _)]
      simp only [Res.bind_ok]
      rw [ih f (c + 1) (!b) (by simpa using h)]
      rfl
    rw [List.flatMap_cons]
    rcases p with ⟨v, _ | _⟩
    · exact step _ _ _
    · exact step _ _ _

theorem pieceLines_no_newline (w : ℚ) (p : Piece) : ∀ l ∈ pieceLines w p, '\n' ∉ l := by
  obtain ⟨l, -, -, hnl⟩ := rankFile_lines 0 0 w [{ p.1 with nuPre := 0 }]
  intro x hx
  apply hnl x
  have hz : fmtInt ((0 : Nat) : Int) = ['0'] := by decide
  simp only [List.mem_cons, List.flatMap_cons, List.flatMap_nil, List.append_nil, evLines, List.mem_append]
  unfold pieceLines at hx
  right
  split_ifs at hx with hb
  · exact Or.inl hx
  · refine Or.inr (Or.inl ?_)
    simp only [Nat.cast_zero] at hz ⊢
    rw [hz]
    exact hx

/-- The text of a piece. -/
def pieceText (w : ℚ) (p : Piece) : List Char := (pieceLines w p).flatMap fun l => l ++ ['\n']

theorem readHistory_pieces (zaid : Int) (einc w : ℚ) (ps : List Piece) :
    readHistory none (headerLine zaid einc w ++ ps.flatMap (pieceText w)) = .ok (⟨zaid, gVal einc, gVal w⟩, rPieces w true ps) := by
  obtain ⟨l, hl, -, hnl⟩ := rankFile_lines zaid einc w []
  have htext : headerLine zaid einc w ++ ps.flatMap (pieceText w) = (l :: ps.flatMap (pieceLines w)).flatMap (fun l => l ++ ['\n']) := by
    rw [hl, List.flatMap_cons, List.flatMap_assoc]; rfl
  have hlines := fileLines_flatMap (l :: ps.flatMap (pieceLines w)) (by
    intro x hx
    rcases List.mem_cons.mp hx with rfl | hx
    · exact hnl x (by simp)
    · obtain ⟨p, -, hx⟩ := List.mem_flatMap.mp hx
      exact pieceLines_no_newline w p x hx)
  unfold readHistory
  rw [htext, hlines]
  simp only [List.map_cons, readline]
  rw [← hl, readHeader_line]
  simp only [Res.bind_ok, Option.map_none]
  have := readLoop_pieces w (gVal w) (sig6_neg (sig6_gVal w)) ps ((nl (ps.flatMap (pieceLines w))).length + 1) 0 true (by
    have : ps.length ≤ (ps.flatMap (pieceLines w)).length := by
      clear htext hlines
      induction ps with
      | nil => simp
      | cons p ps ih =>
        have : 1 ≤ (pieceLines w p).length := by
          unfold pieceLines; split_ifs <;> rw [fragLines_cons] <;> simp
        simp only [List.flatMap_cons, List.length_append, List.length_cons]
        omega
    simp only [nl, List.length_map]
    omega)
  unfold nl at this
  rw [this]
  rfl

theorem rPieces_length (w : ℚ) (ps : List Piece) : ∀ b, (rPieces w b ps).length = ps.length := by
  induction ps with
  | nil => intro b; rfl
  | cons p ps ih => intro b; simp [rPieces, ih]

theorem rPieces_map {α : Type} (w : ℚ) (g : PyFrag → α) (g' : PFrag → α) (h : ∀ v f lo lo' pr, g (rFrag w v f lo lo' 0 pr) = g' f)
    (ps : List Piece) : ∀ b, (rPieces w b ps).map g = ps.map fun p => g' (pieceFrag p) := by
  induction ps with
  | nil => intro b; rfl
  | cons p ps ih =>
    intro b
    simp only [rPieces, List.map_cons, ih, pieceFrag]
    congr 1
    split_ifs <;> exact h _ _ _ _ _

theorem two_of_length {α : Type} {l : List α} (h : 2 ≤ l.length) : ∃ p q r, l = p :: q :: r := by
  cases l with
  | nil => simp at h
  | cons p l =>
    cases l with
    | nil => simp at h
    | cons q r => exact ⟨p, q, r, rfl⟩

/-- The columns can be stacked. -/
theorem stackable_pieces (w : ℚ) (ps : List Piece) (h2 : 2 ≤ ps.length)
    (hn : ∃ p ∈ ps, ∃ q ∈ ps, (pieceFrag p).nu ≠ (pieceFrag q).nu) (hg : ∃ p ∈ ps, ∃ q ∈ ps, (pieceFrag p).nug ≠ (pieceFrag q).nug) :
    stackable (rPieces w true ps) = true := by
  have hmf : ∀ {α : Type} (f : Int → α) (n : Nat) (lo : Int), (mapFrom f lo n).length = n := by
    intro α f n
    induction n with
    | zero => intro lo; rfl
    | succ n ih => intro lo; simp [mapFrom, ih]
  have hag : ∀ (n : Nat) (lo : Int) (age : Int → ℚ), (rAges w age lo n).length = n := by
    intro n lo age; unfold rAges; split_ifs <;> simp [hmf]
  have e1 := rPieces_map w (·.cm.length) (·.nu) (by intros; simp [rFrag, hmf]) ps true
  have e2 := rPieces_map w (·.lab.length) (·.nu) (by intros; simp [rFrag, hmf]) ps true
  have e3 := rPieces_map w (·.phot.length) (·.nug) (by intros; simp [rFrag, hmf]) ps true
  have e4 := rPieces_map w (·.ages.length) (·.nug) (by intros; simp [rFrag, hag]) ps true
  have hlen := rPieces_length w ps true
  have key : ∀ (l inner : List Nat), l.length = ps.length → (∃ a ∈ l, ∃ b ∈ l, a ≠ b) →
      (dims2 (objShape l inner) == (1, ps.length)) = true := by
    intro l inner hl hne
    have := objShape_ok l inner (by omega)
    rw [hl] at this
    rw [beq_iff_eq, this]
    intro h
    obtain ⟨a, ha, b, hb, hab⟩ := hne
    exact hab (h a ha b hb)
  have k1 := fun inner => key (ps.map fun p => (pieceFrag p).nu) inner (by simp) (by
    obtain ⟨p, hp, q, hq, h⟩ := hn
    exact ⟨_, List.mem_map_of_mem hp, _, List.mem_map_of_mem hq, h⟩)
  have k2 := fun inner => key (ps.map fun p => (pieceFrag p).nug) inner (by simp) (by
    obtain ⟨p, hp, q, hq, h⟩ := hg
    exact ⟨_, List.mem_map_of_mem hp, _, List.mem_map_of_mem hq, h⟩)
  have k3 := fun inner => key ((rPieces w true ps).map (·.pren.length)) inner (by simp [hlen]) (by
    obtain ⟨p, q, r, rfl⟩ := two_of_length h2
    have h1 : ∀ b p r, ∃ s, (rPieces w b (p :: r)).map (·.pren.length) = (if b then 0 else 1) :: s ∧ s = (rPieces w (!b) r).map (·.pren.length) := by
      intro b p r
      refine ⟨_, ?_, rfl⟩
      rcases p with ⟨v, _ | _⟩ <;> cases b <;> rfl
    obtain ⟨s, e, e'⟩ := h1 true p (q :: r)
    obtain ⟨s', e'', -⟩ := h1 (!true) q r
    rw [e, e', e'']
    exact ⟨0, by simp, 1, by simp, by decide⟩)
  simp only [stackable, columnShapes, List.all_cons, List.all_nil, Bool.and_true, Bool.and_eq_true, e1, e2, e3, e4, hlen, k1, k2, k3, and_self]

/-- The fragments of complete events. -/
def whole (vs : List PView) : List Piece := vs.flatMap fun v => [(v, true), (v, false)]

theorem printEvent_pieces (w : ℚ) (v : PView) (h : v.nuPre = 0) : printEvent w v = pieceText w (v, true) ++ pieceText w (v, false) := by
  have hz : fmtInt ((0 : Nat) : Int) = ['0'] := by decide
  rw [printEvent_eq, evLines, h, hz]
  simp [pieceText, pieceLines, pLines]

theorem events_pieces (w : ℚ) (vs : List PView) (h : ∀ v ∈ vs, v.nuPre = 0) : vs.flatMap (printEvent w) = (whole vs).flatMap (pieceText w) := by
  rw [whole, List.flatMap_assoc]
  exact List.flatMap_congr fun v hv => by rw [printEvent_pieces w v (h v hv)]; simp

/-- The fragments that a rank has written: its complete events and the light fragment of the event in which it was stopped. -/
def written (r : List PView × Option PView) : List Piece := whole r.1 ++ r.2.toList.map fun v => (v, true)

/-- The text that such a rank has written. -/
def writtenText (zaid : Int) (einc w : ℚ) (ip : Nat) (r : List PView × Option PView) : List Char :=
  rankFile ip zaid einc w r.1 ++ r.2.toList.flatMap fun v => pieceText w (v, true)

/-- It is a piece of the file that the rank would have written. -/
theorem written_cut (zaid : Int) (einc w : ℚ) (ip : Nat) (done more : List PView) (v : PView) (hv : v.nuPre = 0) :
    ∃ k, (rankFile ip zaid einc w (done ++ v :: more)).take k = writtenText zaid einc w ip (done, some v) := by
  obtain ⟨k, hk⟩ := rank_take ip zaid einc w done (v :: more) (pieceText w (v, true)) _ (by
    rw [List.flatMap_cons, printEvent_pieces w v hv, List.append_assoc])
  exact ⟨k, by rw [hk]; simp [writtenText]⟩

theorem joinedCut (zaid : Int) (einc w : ℚ) (r0 : List PView × Option PView) (rs : List (List PView × Option PView))
    (hp : ∀ r ∈ r0 :: rs, ∀ v ∈ r.1, v.nuPre = 0) :
    ((r0 :: rs).zipIdx).flatMap (fun r => writtenText zaid einc w r.2 r.1) =
      headerLine zaid einc w ++ ((r0 :: rs).flatMap written).flatMap (pieceText w) := by
  have one : ∀ (r : List PView × Option PView) (h : ∀ v ∈ r.1, v.nuPre = 0) (ip : Nat), writtenText zaid einc w ip r =
      (if ip = 0 then headerLine zaid einc w else []) ++ (written r).flatMap (pieceText w) := by
    intro r h ip
    simp only [writtenText, rankFile, written, List.flatMap_append, events_pieces w r.1 h, List.append_assoc, List.flatMap_map]
  have more : ∀ (rs : List (List PView × Option PView)) (i : Nat), (∀ r ∈ rs, ∀ v ∈ r.1, v.nuPre = 0) →
      (rs.zipIdx (i + 1)).flatMap (fun r => writtenText zaid einc w r.2 r.1) = (rs.flatMap written).flatMap (pieceText w) := by
    intro rs
    induction rs with
    | nil => intro i _; rfl
    | cons r rs ih =>
      intro i h
      rw [List.zipIdx_cons, List.flatMap_cons, one r (h r (by simp)), ih (i + 1) (fun r hr => h r (by simp [hr]))]
      simp
  rw [List.zipIdx_cons, List.flatMap_cons, one r0 (hp r0 (by simp)), more rs 0 (fun r hr => hp r (by simp [hr]))]
  simp

/-- **C144.**  Ranks stopped between the two fragments of an event: all fragments that were written are read, one after the other, and the
reader takes them in turn as light and heavy ones. -/
theorem C144_fragments (zaid : Int) (einc w : ℚ) (r0 : List PView × Option PView) (rs : List (List PView × Option PView))
    (hp : ∀ r ∈ r0 :: rs, ∀ v ∈ r.1, v.nuPre = 0) :
    ∃ h fs, readHistory none (((r0 :: rs).zipIdx).flatMap (fun r => writtenText zaid einc w r.2 r.1)) = .ok (h, fs) ∧
      fs.map (fun f => (f.a, f.z, f.nn, f.ng)) = ((r0 :: rs).flatMap written).map
        (fun p => ((pieceFrag p).a, (pieceFrag p).z, ((pieceFrag p).nu : Int), ((pieceFrag p).nug : Int))) := by
  rw [joinedCut zaid einc w r0 rs hp]
  exact ⟨_, _, readHistory_pieces zaid einc w _,
    rPieces_map w (fun f => (f.a, f.z, f.nn, f.ng)) (fun f => (f.a, f.z, (f.nu : Int), (f.nug : Int))) (by intros; simp [rFrag]) _ true⟩

/-- **C144.**  With an odd number of ranks stopped between the fragments of an event the joined file is refused (from five fragments on). -/
theorem C144_odd (zaid : Int) (einc w : ℚ) (r0 : List PView × Option PView) (rs : List (List PView × Option PView))
    (hp : ∀ r ∈ r0 :: rs, ∀ v ∈ r.1, v.nuPre = 0) (ho : ((r0 :: rs).filter fun r => r.2.isSome).length % 2 = 1)
    (h5 : 3 < ((r0 :: rs).flatMap written).length) :
    openHistories none (((r0 :: rs).zipIdx).flatMap (fun r => writtenText zaid einc w r.2 r.1)) = .exit := by
  have hlen : ∀ rs : List (List PView × Option PView), (rs.flatMap written).length % 2 = (rs.filter fun r => r.2.isSome).length % 2 := by
    intro rs
    induction rs with
    | nil => rfl
    | cons r rs ih =>
      have hw : (whole r.1).length % 2 = 0 := by
        unfold whole
        rw [List.length_flatMap]
        simp
      rw [List.flatMap_cons, List.length_append, List.filter_cons]
      unfold written at ih ⊢
      rcases r with ⟨d, _ | v⟩
      · simp only [Option.toList_none, List.map_nil, List.append_nil, Option.isSome_none, Bool.false_eq_true, if_false] at hw ⊢
        omega
      · simp only [Option.toList_some, List.map_cons, List.map_nil, List.length_append, List.length_cons, List.length_nil, Option.isSome_some,
          if_true] at hw ⊢
        omega
  have hr := readHistory_pieces zaid einc w ((r0 :: rs).flatMap written)
  rw [← joinedCut zaid einc w r0 rs hp] at hr
  have hl := hlen (r0 :: rs)
  rcases openHistories_cases none _ _ _ hr with e | ⟨H, e⟩
  · exact e
  · exfalso
    obtain ⟨h1, -, -, h4, -⟩ := openHistories_ok e
    rw [hr] at h1
    have hf := (Prod.mk.inj (Res.ok.inj h1)).2
    have hfl : (H.frags.map (·.nn)).length = ((r0 :: rs).flatMap written).length := by rw [List.length_map, ← hf, rPieces_length]
    rw [perEvent_odd (by omega) (by omega) (by omega)] at h4
    cases h4

theorem flatMap_pair_at {α β : Type} (f g : α → β) : ∀ (l : List α) (i : Nat) (a : α), l[i]? = some a →
    (l.flatMap fun x => [f x, g x])[2 * i]? = some (f a) ∧ (l.flatMap fun x => [f x, g x])[2 * i + 1]? = some (g a)
  | [], i, a, h => by simp at h
  | x :: l, 0, a, h => by simp at h; subst h; simp
  | x :: l, i + 1, a, h => by
    have := flatMap_pair_at f g l i a (by simpa using h)
    simp only [List.flatMap_cons, List.cons_append, List.nil_append]
    rw [show 2 * (i + 1) = 2 * i + 1 + 1 by ring]
    simpa using this

theorem messages_pieces (w : ℚ) (ac : Int) : ∀ (ps : List Piece) (j : Nat) (p q : Piece), ps[2 * j]? = some p → ps[2 * j + 1]? = some q →
    (messages ac (rPieces w true ps))[j]? = some (decide ((pieceFrag p).a + (pieceFrag q).a ≠ ac))
  | [], j, p, q, h, _ => by simp at h
  | [x], j, p, q, _, h => by simp at h
  | x :: y :: ps, 0, p, q, h, h' => by
    simp at h h'
    subst h h'
    rcases x with ⟨v, _ | _⟩ <;> rcases y with ⟨v', _ | _⟩ <;>
      (simp only [rPieces, messages, List.getElem?_cons_zero, Option.some.injEq, decide_eq_decide, rFrag, pieceFrag, if_true, Bool.false_eq_true,
        if_false]
       omega)
  | x :: y :: ps, j + 1, p, q, h, h' => by
    have := messages_pieces w ac ps j p q (by rw [show 2 * (j + 1) = 2 * j + 1 + 1 by ring] at h; simpa using h)
      (by rw [show 2 * (j + 1) + 1 = 2 * j + 1 + 1 + 1 by ring] at h'; simpa using h')
    simp only [rPieces, messages, List.getElem?_cons_succ, Bool.not_true, Bool.not_false]
    exact this

/-- **C144 refuted.**  Two ranks that were both stopped between the fragments of an event: their joined files are loaded,
as one event more than were completed, and from the cut of rank 0 on every event is made of fragments of two fissions: the light
fragment left over with the light fragment of the first event of rank 1, then the heavy fragment of each event with the light one of the next.
The reader prints a message for such an event if and only if the masses do not happen to add up, and goes on. -/
theorem C144_refuted (zaid : Int) (einc w : ℚ) (a a' b' : List PView) (x y b0 : PView) (b : List PView)
    (hp : ∀ v ∈ a ++ x :: b0 :: b ++ [y], v.nuPre = 0)
    (hn : x.light.nu ≠ b0.light.nu) (hg : x.light.nug ≠ b0.light.nug) :
    ∃ k0 k1 H, openHistories none ((rankFile 0 zaid einc w (a ++ x :: a')).take k0 ++ (rankFile 1 zaid einc w (b0 :: b ++ y :: b')).take k1) = .ok H ∧
      H.header.zaid = zaid ∧ (H.header.einc = 0 ↔ einc = 0) ∧ H.numberEvents = a.length + (b0 :: b).length + 1 ∧
      (∀ (i : Nat) (v : PView), a[i]? = some v → H.nutot[i]? = some ((v.light.nu + v.heavy.nu : Nat) : Int)) ∧
      H.nutot[a.length]? = some ((x.light.nu + b0.light.nu : Nat) : Int) ∧
      (messages (compoundMass H.header) H.frags)[a.length]? = some (decide (x.light.a + b0.light.a ≠ compoundMass H.header)) ∧
      ∀ (i : Nat) (u v : PView), (b0 :: b ++ [y])[i]? = some u → (b0 :: b ++ [y])[i + 1]? = some v →
        H.nutot[a.length + 1 + i]? = some ((u.heavy.nu + v.light.nu : Nat) : Int) ∧
        (messages (compoundMass H.header) H.frags)[a.length + 1 + i]? = some (decide (u.heavy.a + v.light.a ≠ compoundMass H.header)) := by
  have px : x.nuPre = 0 := hp x (by simp)
  have py : y.nuPre = 0 := hp y (by simp)
  obtain ⟨k0, h0⟩ := written_cut zaid einc w 0 a a' x px
  obtain ⟨k1, h1⟩ := written_cut zaid einc w 1 (b0 :: b) b' y py
  have hall : ∀ r ∈ [(a, some x), (b0 :: b, some y)], ∀ v ∈ r.1, v.nuPre = 0 := by
    intro r hr v hv
    apply hp
    simp only [List.mem_cons, List.not_mem_nil, or_false] at hr
    rcases hr with rfl | rfl
    · simp only [List.mem_append]; exact Or.inl (Or.inl hv)
    · simp only [List.mem_cons] at hv
      simp only [List.mem_append, List.mem_cons]
      rcases hv with hv | hv
      · exact Or.inl (Or.inr (Or.inr (Or.inl hv)))
      · exact Or.inl (Or.inr (Or.inr (Or.inr hv)))
  have hj := joinedCut zaid einc w (a, some x) [(b0 :: b, some y)] hall
  have hps : [(a, some x), (b0 :: b, some y)].flatMap written = whole a ++ (x, true) :: (whole (b0 :: b) ++ [(y, true)]) := by
    simp [written]
  rw [hps] at hj
  set ps : List Piece := whole a ++ (x, true) :: (whole (b0 :: b) ++ [(y, true)]) with hpsdef
  have ht : (rankFile 0 zaid einc w (a ++ x :: a')).take k0 ++ (rankFile 1 zaid einc w (b0 :: b ++ y :: b')).take k1
      = headerLine zaid einc w ++ ps.flatMap (pieceText w) := by
    rw [h0, h1, ← hj]
    simp
  have hwl : ∀ vs : List PView, (whole vs).length = 2 * vs.length := by
    intro vs
    induction vs with
    | nil => rfl
    | cons v vs ih => simp only [whole, List.flatMap_cons, List.length_append, List.length_cons, List.length_nil] at ih ⊢; omega
  have hlen : ps.length = 2 * (a.length + (b0 :: b).length + 1) := by
    simp only [hpsdef, List.length_append, List.length_cons, List.length_nil, hwl]
    omega
  have hmx : (x, true) ∈ ps := by simp [hpsdef]
  have hmb : (b0, true) ∈ ps := by simp [hpsdef, whole]
  have hst : stackable (rPieces w true ps) = true := stackable_pieces w ps (by omega) ⟨_, hmx, _, hmb, by simpa [pieceFrag] using hn⟩
    ⟨_, hmx, _, hmb, by simpa [pieceFrag] using hg⟩
  have hr := readHistory_pieces zaid einc w ps
  have hfl := rPieces_length w ps true
  have hpe : ∀ {α : Type} [Add α] (g : PyFrag → α), perEvent ((rPieces w true ps).map g)
      = .ok ((evens ((rPieces w true ps).map g)).zipWith (· + ·) (odds ((rPieces w true ps).map g))) := fun g => perEvent_even (by
    rw [List.length_map]; omega)
  have hopen : ∃ H, openHistories none (headerLine zaid einc w ++ ps.flatMap (pieceText w)) = .ok H ∧ H.header = ⟨zaid, gVal einc, gVal w⟩ ∧ H.frags = rPieces w true ps ∧
      H.numberEvents = (rPieces w true ps).length / 2 := by
    unfold openHistories loadHistories
    have hne : (rPieces w true ps).isEmpty = false := by
      rw [List.isEmpty_eq_false_iff]
      intro h
      rw [h] at hfl; simp at hfl; omega
    rw [hr, Res.bind_ok]
    rw [if_pos (by rw [hst, hne]; rfl), Res.bind_ok]
    simp only [hpe, Res.bind_ok, Res.pure_eq]
    exact ⟨_, rfl, rfl, rfl, rfl⟩
  obtain ⟨H, hH, hh, hf, hne⟩ := hopen
  refine ⟨k0, k1, H, by rw [ht]; exact hH, by rw [hh], by rw [hh]; exact gVal_zero einc, by rw [hne]; omega, ?_⟩
  have hnn := rPieces_map w (·.nn) (fun f => (f.nu : Int)) (by intros; rfl) ps true
  have hall2 := openHistories_ok hH
  have hpn := perEvent_at (by rw [List.length_map, hf]; omega) hall2.2.2.2.1
  rw [hf, hnn] at hpn
  have at_ : ∀ (j : Nat) (p q : Piece), ps[2 * j]? = some p → ps[2 * j + 1]? = some q →
      H.nutot[j]? = some (((pieceFrag p).nu + (pieceFrag q).nu : Nat) : Int) := by
    intro j p q h h'
    have := hpn.2 j _ _ (by rw [List.getElem?_map, h]; rfl) (by rw [List.getElem?_map, h']; rfl)
    rw [this]
    push_cast
    rfl
  have hmsg : ∀ (j : Nat) (p q : Piece), ps[2 * j]? = some p → ps[2 * j + 1]? = some q →
      (messages (compoundMass H.header) H.frags)[j]? = some (decide ((pieceFrag p).a + (pieceFrag q).a ≠ compoundMass H.header)) := by
    intro j p q h h'
    rw [hf]
    exact messages_pieces w _ ps j p q h h'
  have hwa := hwl a
  refine ⟨?_, ?_, ?_, ?_⟩
  · intro i v hv
    have hi : i < a.length := (List.getElem?_eq_some_iff.mp hv).1
    obtain ⟨e1, e2⟩ := flatMap_pair_at (fun v : PView => (v, true)) (fun v => (v, false)) a i v hv
    exact at_ i (v, true) (v, false) (by rw [hpsdef, List.getElem?_append_left (by omega)]; exact e1)
      (by rw [hpsdef, List.getElem?_append_left (by omega)]; exact e2)
  · refine at_ a.length (x, true) (b0, true) ?_ ?_
    · rw [hpsdef, List.getElem?_append_right (by omega), hwa]; simp
    · rw [hpsdef, List.getElem?_append_right (by omega), hwa]; simp [whole]
  · refine hmsg a.length (x, true) (b0, true) ?_ ?_
    · rw [hpsdef, List.getElem?_append_right (by omega), hwa]; simp
    · rw [hpsdef, List.getElem?_append_right (by omega), hwa]; simp [whole]
  · intro i u v hu hv
    have tail_at : ∀ n, ps[2 * a.length + 1 + n]? = (whole (b0 :: b) ++ [(y, true)])[n]? := by
      intro n
      rw [hpsdef, List.getElem?_append_right (by omega), hwa, show 2 * a.length + 1 + n - 2 * a.length = n + 1 by omega, List.getElem?_cons_succ]
    have hi : i + 1 < (b0 :: b ++ [y]).length := (List.getElem?_eq_some_iff.mp hv).1
    rw [List.length_append, List.length_singleton] at hi
    have hwb := hwl (b0 :: b)
    rw [List.getElem?_append_left (by omega)] at hu
    obtain ⟨-, e2⟩ := flatMap_pair_at (fun v : PView => (v, true)) (fun v => (v, false)) (b0 :: b) i u hu
    suffices hh : ps[2 * (a.length + 1 + i)]? = some (u, false) ∧ ps[2 * (a.length + 1 + i) + 1]? = some (v, true) from
      ⟨at_ _ _ _ hh.1 hh.2, hmsg _ _ _ hh.1 hh.2⟩
    constructor
    · rw [show 2 * (a.length + 1 + i) = 2 * a.length + 1 + (2 * i + 1) by ring, tail_at, List.getElem?_append_left (by omega)]
      exact e2
    · rw [show 2 * (a.length + 1 + i) + 1 = 2 * a.length + 1 + (2 * (i + 1)) by ring, tail_at]
      by_cases hlast : i + 1 < (b0 :: b).length
      · rw [List.getElem?_append_left (by omega)] at hv
        rw [List.getElem?_append_left (by omega)]
        exact (flatMap_pair_at (fun v : PView => (v, true)) (fun v => (v, false)) (b0 :: b) (i + 1) v hv).1
      · have hil : i + 1 = (b0 :: b).length := by omega
        rw [hil, List.getElem?_append_right (by omega)] at hv
        rw [hil, List.getElem?_append_right (by omega), hwb]
        simp at hv ⊢
        exact hv

/-- Two ranks with two events each, both stopped in their second event: the total of the second event read adds two light fragments. -/
example : ∃ k0 k1 H, openHistories none ((rankFile 0 92238 8 (-1) [agedView, agedView]).take k0 ++
      (rankFile 1 92238 8 (-1) [{ agedView with light := agedView.heavy }, agedView]).take k1) = .ok H ∧
    H.numberEvents = 3 ∧ H.nutot[1]? = some 1 := by
  obtain ⟨k0, k1, H, h1, -, -, h2, -, h3, -, -⟩ := C144_refuted 92238 8 (-1) [agedView] [] [] agedView agedView { agedView with light := agedView.heavy } []
    (by simp [agedView]) (by simp [agedView, demoView]) (by simp [agedView, demoView])
  exact ⟨k0, k1, H, h1, by simpa using h2, by simpa [agedView, demoView] using h3⟩

/-- The same with masses that happen to add up: light fragments of 104 and 135 nucleons of two fissions of a nucleus of 239 are read as one
event, and nothing is printed for it. -/
example : ∃ k0 k1 H, openHistories none ((rankFile 0 92238 8 (-1) [agedView, agedView]).take k0 ++
      (rankFile 1 92238 8 (-1) [{ agedView with light := { agedView.heavy with a := 135 } }, agedView]).take k1) = .ok H ∧
    H.numberEvents = 3 ∧ H.nutot[1]? = some 1 ∧ (messages (compoundMass H.header) H.frags)[1]? = some false := by
  obtain ⟨k0, k1, H, h1, z1, z2, h2, -, h3, h4, -⟩ := C144_refuted 92238 8 (-1) [agedView] [] [] agedView agedView
    { agedView with light := { agedView.heavy with a := 135 } } [] (by simp [agedView]) (by simp [agedView, demoView]) (by simp [agedView, demoView])
  refine ⟨k0, k1, H, h1, by simpa using h2, by simpa [agedView, demoView] using h3, ?_⟩
  have hc : compoundMass H.header = 239 := by
    simp only [compoundMass, z1]
    rw [if_neg (by rw [z2]; norm_num)]
    decide
  simp only [List.length_singleton] at h4
  rw [h4, hc]
  rfl

/-- Complete events of a nucleus of 251 nucleons: no message. -/
example : ∃ h fs, readHistory none (rankFile 0 98251 0 (-1) [agedView, agedView]) = .ok (h, fs) ∧ messages (compoundMass h) fs = [false, false] :=
  C144_silent 98251 0 (-1) [agedView, agedView] (by simp [agedView, demoView])

/-- One rank of two stopped in its second event: refused. -/
example : openHistories none (([([agedView], some agedView), ([agedView], none)].zipIdx).flatMap (fun r => writtenText 92238 8 (-1) r.2 r.1)) = .exit :=
  C144_odd 92238 8 (-1) _ _ (by simp [agedView]) (by simp) (by simp [written, whole])

/-- Ranks stopped between events: five events of two ranks, of which two and one were written. -/
example : ∃ cuts : List Nat, cuts.length = 2 ∧
    leftOver 92238 8 (-1) ((([agedView, agedView, agedView], 2) :: [([agedView, agedView], 1)]).zipIdx.zipWith (fun r c => (r.2, r.1.1, c)) cuts) =
      rankFile 0 92238 8 (-1) [agedView, agedView, agedView] :=
  C144_between 92238 8 (-1) [agedView, agedView, agedView] 2 [([agedView, agedView], 1)]

end CGMF.Props
