import Verif.Proofs.LevelText
import Verif.Props.Levels
import Mathlib.Algebra.Order.Ring.Rat
import Mathlib.Algebra.Field.Rat

/-!
# C106: the level file, from its characters to the levels of a nucleus
-/

namespace CGMF.Props

open CGMF CGMF.Data CGMF.Ripl CGMF.LevelText CGMF.Spec

variable {K : Type} [Field K] [LinearOrder K]

omit [Field K] [LinearOrder K] in
private theorem open_text {cwd dir : Option (List Char)} {t : List Char} (h : TextOf cwd dir t) :
    openData cwd dir = ⟨t, false, false⟩ := by
  rcases h with rfl | ⟨rfl, rfl⟩ <;> rfl

/-- **C106.** For every well-formed level file the reader ends and fills the tables from exactly the records the columns
show, nucleus after nucleus and transition after transition; the choice of directory does not matter. -/
theorem C106_text (cv : Conv K) (mb ml mn : Nat) (f : List (LevelItem K)) (hf : ∀ x ∈ f, x.Good cv) (name : List Char)
    (cwd dir : Option (List Char)) (ht : TextOf cwd dir (levelFile f)) (fuel : Nat) (hfuel : f.length < fuel) :
    readText cv mb ml mn fuel name cwd dir = ofRes (readData mb ml mn (levelRecords f)) := by
  obtain ⟨n, rfl⟩ : ∃ n, fuel = (n + 1) + f.length := ⟨fuel - f.length - 1, by omega⟩
  unfold readText
  rw [open_text ht]
  simp only [Bool.false_eq_true, if_false]
  obtain ⟨str', h⟩ := fileLoop_items (cv := cv) (mb := mb) (ml := ml) [] f 0 ⟨List.replicate mn 0, List.replicate mn []⟩ name hf
  rw [List.append_nil] at h
  rw [h (n + 1), readData]
  cases readFile mb ml (levelRecords f) 0 ⟨List.replicate mn 0, List.replicate mn []⟩ with
  | exit => rfl
  | ub => rfl
  | ok db =>
    simp only [fileLoop, getline_empty, if_true]
    rfl

/-- **C106.** So a simulation that asks for a nucleus of the file gets the levels its lines show: for the first entry of
that nucleus, one level per level line, made from that line and the transition lines after it. -/
theorem C106_levels [IsStrictOrderedRing K] (cv : Conv K) (mb ml mn : Nat) (hmb : 2 ≤ mb) (f : List (LevelItem K))
    (hf : ∀ x ∈ f, x.Good cv)
    (hn : (levelRecords f).length ≤ mn) (hl : ∀ e ∈ levelRecords f, e.2.length < ml) (name : List Char)
    (cwd dir : Option (List Char)) (ht : TextOf cwd dir (levelFile f)) (fuel : Nat) (hfuel : f.length < fuel)
    (pre post : List (LevelItem K)) (hd : List Char) (z : Int) (ls : List (LevelRec K))
    (hsplit : f = pre ++ .nucleus hd z ls :: post) (hfirst : ∀ e ∈ levelRecords pre, e.1 ≠ z) :
    ∃ db lv, readText cv mb ml mn fuel name cwd dir = .ok db ∧ lookup db z = .ok lv ∧
      NucleusFrom mb (ls.map LevelRec.raw) lv := by
  obtain ⟨db, h1, -⟩ := C28_read mb ml mn hmb (levelRecords f) hn hl
  have hrec : levelRecords f = levelRecords pre ++ (z, ls.map LevelRec.raw) :: levelRecords post := by
    rw [hsplit]
    simp [levelRecords, LevelItem.records]
  obtain ⟨lv, h2, h3⟩ := C67_lookup_partial mb ml mn hmb (levelRecords f) hn hl db h1 (levelRecords pre).length
    (z, ls.map LevelRec.raw) (by rw [hrec]; simp) (by
      intro k e' hk he'
      rw [hrec, List.getElem?_append_left hk] at he'
      exact hfirst e' (List.mem_of_getElem? he'))
  exact ⟨db, lv, by rw [C106_text cv mb ml mn f hf name cwd dir ht fuel hfuel, h1]; rfl, h2, h3⟩

/-- **C106.** Without the file in either directory the run stops. -/
theorem C106_missing_file (cv : Conv K) (mb ml mn fuel : Nat) (name : List Char) :
    readText cv mb ml mn fuel name none none = .exit := rfl

/-- **C106.** A file cut after a complete line, before the announced number of levels, stops the run: it is never taken
for a nucleus with fewer levels. -/
theorem C106_short [IsStrictOrderedRing K] (cv : Conv K) (mb ml mn : Nat) (hmb : 2 ≤ mb) (f : List (LevelItem K))
    (hf : ∀ x ∈ f, x.Good cv) (hl : ∀ e ∈ levelRecords f, e.2.length < ml) (hn : (levelRecords f).length < mn)
    (hd : List Char) (z : Int) (ls : List (LevelRec K)) (hls : ∀ r ∈ ls, r.Good cv) (missing : Nat)
    (hh : HeadShows cv hd z (ls.length + (missing + 1)))
    (name : List Char) (cwd dir : Option (List Char))
    (ht : TextOf cwd dir (levelFile f ++ (withNewlines [hd] ++ ls.flatMap LevelRec.text))) (fuel : Nat)
    (hfuel : f.length < fuel) : readText cv mb ml mn fuel name cwd dir = .exit := by
  have hread : ∃ lev', readLevels mb (ls.map LevelRec.raw) 0 (List.replicate (ls.length + (missing + 1)) fresh) = .ok lev' := by
    obtain ⟨lev', h, -⟩ := readLevels_spec mb hmb (ls.map LevelRec.raw ++ List.replicate (missing + 1) ⟨0, 0, 0, 0, []⟩) []
      (List.replicate (ls.length + (missing + 1)) fresh) (by simp) (by simp)
    have prefix_ok : ∀ (a b : List (Raw K)) (i : Nat) (lev lev' : List (Level K)), readLevels mb (a ++ b) i lev = .ok lev' →
        ∃ lev'', readLevels mb a i lev = .ok lev'' := by
      intro a
      induction a with
      | nil => intro b i lev lev' _; exact ⟨lev, rfl⟩
      | cons x a ih =>
        intro b i lev lev' hx
        rw [List.cons_append, readLevels] at hx
        rw [readLevels]
        cases hr : readLevel mb i x lev with
        | ok l => rw [hr, bind_ok'] at hx; rw [bind_ok']; exact ih _ _ _ _ hx
        | exit => rw [hr] at hx; cases hx
        | ub => rw [hr] at hx; cases hx
    exact prefix_ok _ _ _ _ _ h
  obtain ⟨n, rfl⟩ : ∃ n, fuel = (n + 1) + f.length := ⟨fuel - f.length - 1, by omega⟩
  unfold readText
  rw [open_text ht]
  simp only [Bool.false_eq_true, if_false]
  obtain ⟨str', h⟩ := fileLoop_items (cv := cv) (mb := mb) (ml := ml) (withNewlines [hd] ++ ls.flatMap LevelRec.text) f 0
    ⟨List.replicate mn 0, List.replicate mn []⟩ name hf
  rw [h (n + 1)]
  obtain ⟨db, hdb, hz, -⟩ := C28_read mb ml mn hmb (levelRecords f) hn.le hl
  rw [readData] at hdb
  rw [hdb]
  simp only
  have htx : withNewlines [hd] ++ ls.flatMap LevelRec.text = hd ++ '\n' :: ls.flatMap LevelRec.text := by simp [withNewlines]
  rw [fileLoop, htx, getline_line hd _ hh.1]
  simp only [Bool.false_eq_true, if_false, hh.2.1]
  have : nucleus cv mb ml (0 + (levelRecords f).length) db hd ⟨ls.flatMap LevelRec.text, false, false⟩ = .exit := by
    obtain ⟨-, -, hlen, h1, h2⟩ := hh
    unfold nucleus
    rw [substr_ok (by omega), bind_ok', substr_ok (by omega), bind_ok', h1, h2]
    split
    · rfl
    · rw [writeAt_ok _ (by omega) (by omega), bind_ok', if_neg (by omega), Int.toNat_natCast,
        levelLines_short ls missing 0 _ _ hls hread]
      rfl
  rw [this]

/-- **C106**, the case that is not caught: a file cut inside its last nucleus, right after a level line without newline.
The line stands in for every level still announced: the nucleus gets `n+1` copies of one level and the run goes on. -/
theorem C106_truncated (cv : Conv K) (mb ml mn : Nat) (f : List (LevelItem K)) (hf : ∀ x ∈ f, x.Good cv) (hd : List Char)
    (z : Int) (l : List Char) (raw : Raw K) (n : Nat) (hh : HeadShows cv hd z (n + 1)) (hl : LevelShows cv l raw 0)
    (hg : raw.gammas = []) (name : List Char) (cwd dir : Option (List Char))
    (ht : TextOf cwd dir (levelFile f ++ (withNewlines [hd] ++ l))) (fuel : Nat) (hfuel : f.length + 1 < fuel) :
    readText cv mb ml mn fuel name cwd dir =
      ofRes (readData mb ml mn (levelRecords f ++ [(z, List.replicate (n + 1) raw)])) := by
  obtain ⟨k, rfl⟩ : ∃ k, fuel = (k + 2) + f.length := ⟨fuel - f.length - 2, by omega⟩
  unfold readText
  rw [open_text ht]
  simp only [Bool.false_eq_true, if_false]
  obtain ⟨str', h⟩ := fileLoop_items (cv := cv) (mb := mb) (ml := ml) (withNewlines [hd] ++ l) f 0
    ⟨List.replicate mn 0, List.replicate mn []⟩ name hf
  rw [h (k + 2), readData]
  have app : ∀ (a b : List (Int × List (Raw K))) (c : Nat) (db : DB K),
      readFile mb ml (a ++ b) c db = (readFile mb ml a c db).bind fun db' => readFile mb ml b (c + a.length) db' := by
    intro a
    induction a with
    | nil => intro b c db; rfl
    | cons x a ih =>
      intro b c db
      obtain ⟨y, ys⟩ := x
      rw [List.cons_append, readFile_cons, readFile_cons]
      cases storeNucleus mb ml c db y ys with
      | exit => rfl
      | ub => rfl
      | ok db' =>
        simp only [bind_ok']
        rw [ih]
        congr 1
        funext d
        congr 1
        simp only [List.length_cons]; omega
  rw [app]
  cases readFile mb ml (levelRecords f) 0 ⟨List.replicate mn 0, List.replicate mn []⟩ with
  | exit => rfl
  | ub => rfl
  | ok db =>
    simp only [bind_ok']
    have htx : withNewlines [hd] ++ l = hd ++ '\n' :: l := by simp [withNewlines]
    rw [fileLoop, htx, getline_line hd _ hh.1]
    simp only [Bool.false_eq_true, if_false, hh.2.1]
    obtain ⟨s', hs', hlv⟩ := levelLines_unended (mb := mb) hl hg n 0 (List.replicate (n + 1) fresh) hd
    have hlen : (List.replicate (n + 1) raw).length = n + 1 := by simp
    have hnuc := nucleus_of (cv := cv) (mb := mb) (ml := ml) (rs := List.replicate (n + 1) raw) (0 + (levelRecords f).length)
      db ⟨l, false, false⟩ (by rw [hlen]; exact hh) (str' := l) (s' := s') (by rw [hlen]; exact hlv)
    rw [hnuc, readFile_cons]
    cases storeNucleus mb ml (0 + (levelRecords f).length) db z (List.replicate (n + 1) raw) with
    | exit => rfl
    | ub => rfl
    | ok db' =>
      simp only [bind_ok']
      rw [fileLoop, getline_bad s' (by simp [hs'])]
      rfl

/-! ## A small file

Digits only: numbers are read by their first digit, blanks skipped. -/

/-- A conversion for the examples: the first digit, else zero. -/
def digitConv : Conv ℚ where
  atoi l := match l.find? Char.isDigit with | some c => (c.toNat : Int) - 48 | none => 0
  atof l := match l.find? Char.isDigit with | some c => (c.toNat : ℚ) - 48 | none => 0
  atof2 l := match l.find? Char.isDigit with | some c => 2 * ((c.toNat : Int) - 48) | none => 0

private def hdr : List Char := "H          2    2".toList
private def lev0 : List Char := "0             0  1            9  0".toList
private def lev1 : List Char := "3             2  1            1  1".toList
private def gam1 : List Char := "  0        1         0".toList

private def small : List (LevelItem ℚ) :=
  [.comment "# levels".toList,
   .nucleus hdr 2 [⟨lev0, [], ⟨0, 0, 1, 9, []⟩⟩, ⟨lev1, [gam1], ⟨3, 4, 1, 1, [⟨0, 1, 0⟩]⟩⟩]]

private theorem small_good : ∀ x ∈ small, x.Good digitConv := by
  intro x hx
  simp only [small, List.mem_cons, List.not_mem_nil, or_false] at hx
  rcases hx with rfl | rfl
  · exact ⟨by decide, by decide⟩
  · refine ⟨⟨by decide, by decide, by decide, by decide +kernel, by decide +kernel⟩, ?_⟩
    intro r hr
    simp only [List.mem_cons, List.not_mem_nil, or_false] at hr
    rcases hr with rfl | rfl
    · exact ⟨⟨by decide, by decide, by decide +kernel, by decide +kernel, by decide +kernel, by decide +kernel,
        by decide +kernel⟩, List.Forall₂.nil⟩
    · exact ⟨⟨by decide, by decide, by decide +kernel, by decide +kernel, by decide +kernel, by decide +kernel,
        by decide +kernel⟩, List.Forall₂.cons ⟨by decide, by decide, by decide +kernel, by decide +kernel,
        by decide +kernel⟩ List.Forall₂.nil⟩

/-- The small file meets the hypotheses of `C106_text` and `C106_levels`. -/
example : ∃ db lv, readText digitConv 61 200 3500 3 [] none (some (levelFile small)) = .ok db ∧ lookup db 2 = .ok lv ∧
    NucleusFrom 61 [⟨0, 0, 1, 9, []⟩, ⟨3, 4, 1, 1, [⟨0, 1, 0⟩]⟩] lv :=
  C106_levels digitConv 61 200 3500 (by omega) small small_good (by decide) (by decide +kernel) [] none _
    (Or.inr ⟨rfl, rfl⟩) 3 (by decide) [.comment "# levels".toList] [] hdr 2 _ rfl (by simp [levelRecords, LevelItem.records])

/-- The same file cut after its first level line, with and without the newline: stopped, and read as two ground states. -/
example : readText digitConv 61 200 3500 3 [] (some (hdr ++ '\n' :: lev0 ++ ['\n'])) none = .exit :=
  C106_short digitConv 61 200 3500 (by omega) [] (by simp) (by simp [levelRecords]) (by simp [levelRecords]) hdr 2
    [⟨lev0, [], ⟨0, 0, 1, 9, []⟩⟩] (by
      intro r hr
      simp only [List.mem_cons, List.not_mem_nil, or_false] at hr
      subst hr
      exact ⟨⟨by decide, by decide, by decide +kernel, by decide +kernel, by decide +kernel, by decide +kernel,
        by decide +kernel⟩, List.Forall₂.nil⟩) 0
    ⟨by decide, by decide, by decide, by decide +kernel, by decide +kernel⟩ [] _ none
    (Or.inl (by simp [levelFile, withNewlines, LevelRec.text])) 3 (by simp)

example : readText digitConv 61 200 3500 3 [] (some (hdr ++ '\n' :: lev0)) none =
    ofRes (readData 61 200 3500 [(2, [⟨0, 0, 1, 9, []⟩, ⟨0, 0, 1, 9, []⟩])]) :=
  C106_truncated digitConv 61 200 3500 [] (by simp) hdr 2 lev0 ⟨0, 0, 1, 9, []⟩ 1
    ⟨by decide, by decide, by decide, by decide +kernel, by decide +kernel⟩
    ⟨by decide, by decide, by decide +kernel, by decide +kernel, by decide +kernel, by decide +kernel, by decide +kernel⟩
    rfl [] _ none (Or.inl (by simp [levelFile, withNewlines])) 3 (by simp)

end CGMF.Props
