import Verif.Spec.LevelText
import Verif.Proofs.Data
import Verif.Tactics

/-! Lemmas on the text layer of the level file. -/

namespace CGMF.LevelText

open CGMF.Data CGMF.Ripl CGMF.Spec

variable {K : Type} [Field K] [LinearOrder K]

theorem substr_ok {l : List Char} {a n : Nat} (h : a ≤ l.length) : substr l a n = .ok (cols l a n) := by
  unfold substr cols
  rw [if_neg (by omega)]

theorem bind_ok' {α β : Type} (a : α) (f : α → Res β) : (Res.ok a).bind f = f a := rfl

theorem gamLine_good {cv : Conv K} {l : List Char} {g : Gam K} (h : GamShows cv l g) : gamLine cv l = .ok g := by
  obtain ⟨-, hl, h1, h2, h3⟩ := h
  unfold gamLine
  rw [substr_ok (by omega), bind_ok', substr_ok (by omega), bind_ok', substr_ok (by omega), bind_ok', h1, h2, h3,
    if_neg (by omega)]
  simp

theorem gamLines_good {cv : Conv K} (r : List Char) : ∀ {ls : List (List Char)} {gs : List (Gam K)} (str : List Char),
    List.Forall₂ (GamShows cv) ls gs →
    ∃ str', gamLines cv gs.length str ⟨withNewlines ls ++ r, false, false⟩ = .ok (gs, str', ⟨r, false, false⟩)
  | _, _, str, .nil => ⟨str, rfl⟩
  | _, _, str, .cons (a := l) (b := g) (l₁ := ls) (l₂ := gs) h hs => by
    have ht : withNewlines (l :: ls) ++ r = l ++ '\n' :: (withNewlines ls ++ r) := by simp [withNewlines]
    obtain ⟨str', h'⟩ := gamLines_good r l hs
    refine ⟨str', ?_⟩
    rw [List.length_cons, gamLines, ht, getline_line l _ h.1, gamLine_good h, bind_ok', h', bind_ok']

theorem levelLine_good {cv : Conv K} (r : List Char) (rec : LevelRec K) (h : rec.Good cv) (str : List Char) :
    ∃ str', levelLine cv str ⟨rec.text ++ r, false, false⟩ = .ok (rec.raw, str', ⟨r, false, false⟩) := by
  obtain ⟨⟨hn, hl, h1, h2, h3, h4, h5⟩, hg⟩ := h
  have ht : rec.text ++ r = rec.line ++ '\n' :: (withNewlines rec.gams ++ r) := by simp [LevelRec.text, withNewlines]
  obtain ⟨str', h'⟩ := gamLines_good r rec.line hg
  refine ⟨str', ?_⟩
  unfold levelLine
  rw [ht, getline_line rec.line _ hn]
  simp only
  rw [substr_ok (by omega), bind_ok', substr_ok (by omega), bind_ok', substr_ok (by omega), bind_ok', substr_ok (by omega),
    bind_ok', substr_ok (by omega), bind_ok', h5, Int.toNat_natCast, h', bind_ok', if_neg (by omega), h1, h2, h3, h4]

theorem levelLines_good {cv : Conv K} {mb : Nat} (r : List Char) : ∀ (ls : List (LevelRec K)) (i : Nat) (lev : List (Level K))
    (str : List Char), (∀ x ∈ ls, x.Good cv) →
    ∃ str', levelLines cv mb ls.length i lev str ⟨ls.flatMap LevelRec.text ++ r, false, false⟩ =
      (readLevels mb (ls.map LevelRec.raw) i lev).bind fun lev' => .ok (lev', str', ⟨r, false, false⟩)
  | [], i, lev, str, _ => ⟨str, rfl⟩
  | x :: ls, i, lev, str, h => by
    obtain ⟨str₁, h₁⟩ := levelLine_good (ls.flatMap LevelRec.text ++ r) x (h x (by simp)) str
    have ht : (x :: ls).flatMap LevelRec.text ++ r = x.text ++ (ls.flatMap LevelRec.text ++ r) := by simp
    cases hr : readLevel mb i x.raw lev with
    | ok lev' =>
      obtain ⟨str', h'⟩ := levelLines_good r ls (i + 1) lev' str₁ (fun y hy => h y (by simp [hy]))
      refine ⟨str', ?_⟩
      rw [List.length_cons, levelLines, ht, h₁, bind_ok', List.map_cons, readLevels, hr, bind_ok', bind_ok', h']
    | exit =>
      refine ⟨[], ?_⟩
      rw [List.length_cons, levelLines, ht, h₁, bind_ok', List.map_cons, readLevels, hr]; rfl
    | ub =>
      refine ⟨[], ?_⟩
      rw [List.length_cons, levelLines, ht, h₁, bind_ok', List.map_cons, readLevels, hr]; rfl

/-- One nucleus of the record model. -/
def storeNucleus (mb ml c : Nat) (db : DB K) (z : Int) (rs : List (Raw K)) : Res (DB K) :=
  if ml ≤ rs.length then .exit
  else
    (writeAt db.zaid c z).bind fun zs =>
      (readNucleus mb rs).bind fun ls => (writeAt db.levels c ls).bind fun lv => .ok ⟨zs, lv⟩

theorem readFile_cons (mb ml : Nat) (z : Int) (rs : List (Raw K)) (file : List (Int × List (Raw K))) (c : Nat) (db : DB K) :
    readFile mb ml ((z, rs) :: file) c db = (storeNucleus mb ml c db z rs).bind fun db' => readFile mb ml file (c + 1) db' := by
  rw [readFile, storeNucleus]
  split
  · rfl
  · cases writeAt db.zaid c z <;> try rfl
    cases readNucleus mb rs <;> try rfl
    simp only [bind_ok']
    cases writeAt db.levels c _ <;> rfl

/-- The nucleus reader, given what its levels amount to. -/
theorem nucleus_of {cv : Conv K} {mb ml : Nat} {h : List Char} {z : Int} {rs : List (Raw K)} (c : Nat) (db : DB K) (s : In)
    (hh : HeadShows cv h z rs.length)
    {str' : List Char} {s' : In} (hl : levelLines cv mb rs.length 0 (List.replicate rs.length fresh) h s =
      (readLevels mb rs 0 (List.replicate rs.length fresh)).bind fun lev' => .ok (lev', str', s')) :
    nucleus cv mb ml c db h s = (storeNucleus mb ml c db z rs).bind fun db' => .ok (db', str', s') := by
  obtain ⟨-, -, hlen, h1, h2⟩ := hh
  unfold nucleus storeNucleus
  rw [substr_ok (by omega), bind_ok', substr_ok (by omega), bind_ok', h1, h2]
  by_cases hm : ml ≤ rs.length
  · rw [if_pos (by exact_mod_cast hm), if_pos hm]; rfl
  · rw [if_neg (by exact_mod_cast hm), if_neg hm]
    cases writeAt db.zaid c z with
    | exit => rfl
    | ub => rfl
    | ok zs =>
      simp only [bind_ok']
      rw [if_neg (by omega), Int.toNat_natCast, hl, readNucleus]
      cases readLevels mb rs 0 (List.replicate rs.length fresh) with
      | exit => rfl
      | ub => rfl
      | ok ls =>
        simp only [bind_ok']
        cases writeAt db.levels c ls <;> rfl

theorem getline_empty (str : List Char) : getline ⟨[], false, false⟩ str = ([], ⟨[], true, true⟩) := rfl

/-- Well-formed items, whatever follows. -/
theorem fileLoop_items {cv : Conv K} {mb ml : Nat} (r : List Char) : ∀ (f : List (LevelItem K)) (c : Nat) (db : DB K)
    (str : List Char), (∀ x ∈ f, x.Good cv) → ∃ str', ∀ fuel,
    fileLoop cv mb ml (fuel + f.length) c db str ⟨levelFile f ++ r, false, false⟩ =
      match readFile mb ml (levelRecords f) c db with
      | .ok db' => fileLoop cv mb ml fuel (c + (levelRecords f).length) db' str' ⟨r, false, false⟩
      | .exit => .exit
      | .ub => .ub
  | [], c, db, str, _ => ⟨str, fun fuel => rfl⟩
  | .comment l :: f, c, db, str, h => by
    obtain ⟨hn, hc⟩ := h _ List.mem_cons_self
    obtain ⟨str', h'⟩ := fileLoop_items r f c db l (fun x hx => h x (by simp [hx]))
    refine ⟨str', fun fuel => ?_⟩
    have ht : levelFile (.comment l :: f) ++ r = l ++ '\n' :: (levelFile f ++ r) := by
      simp [levelFile, LevelItem.text, withNewlines]
    have hr : levelRecords (.comment l :: f) = levelRecords f := rfl
    rw [List.length_cons, ← Nat.add_assoc, fileLoop, ht, getline_line l _ hn, hr]
    simp only [Bool.false_eq_true, if_false, hc, if_true]
    exact h' fuel
  | .nucleus hd z ls :: f, c, db, str, h => by
    obtain ⟨hh, hls⟩ := h _ List.mem_cons_self
    have ht : levelFile (.nucleus hd z ls :: f) ++ r = hd ++ '\n' :: (ls.flatMap LevelRec.text ++ (levelFile f ++ r)) := by
      simp [levelFile, LevelItem.text, withNewlines]
    have hr : levelRecords (.nucleus hd z ls :: f) = (z, ls.map LevelRec.raw) :: levelRecords f := rfl
    obtain ⟨str₁, h₁⟩ := levelLines_good (cv := cv) (mb := mb) (levelFile f ++ r) ls 0 (List.replicate ls.length fresh) hd hls
    have hnuc := nucleus_of (ml := ml) (rs := ls.map LevelRec.raw) c db
      ⟨ls.flatMap LevelRec.text ++ (levelFile f ++ r), false, false⟩ (by simpa using hh) (by simpa using h₁)
    rw [hr]
    simp only [readFile_cons]
    cases hst : storeNucleus mb ml c db z (ls.map LevelRec.raw) with
    | ok db₁ =>
      obtain ⟨str', h'⟩ := fileLoop_items r f (c + 1) db₁ str₁ (fun x hx => h x (by simp [hx]))
      refine ⟨str', fun fuel => ?_⟩
      rw [hst] at hnuc
      rw [List.length_cons, ← Nat.add_assoc, fileLoop, ht, getline_line hd _ hh.1]
      simp only [Bool.false_eq_true, if_false, hh.2.1, hnuc, bind_ok']
      rw [h' fuel, List.length_cons]
      have : c + ((levelRecords f).length + 1) = c + 1 + (levelRecords f).length := by omega
      rw [this]
    | exit =>
      refine ⟨[], fun fuel => ?_⟩
      rw [hst] at hnuc
      rw [List.length_cons, ← Nat.add_assoc, fileLoop, ht, getline_line hd _ hh.1]
      simp only [Bool.false_eq_true, if_false, hh.2.1, hnuc]
      rfl
    | ub =>
      refine ⟨[], fun fuel => ?_⟩
      rw [hst] at hnuc
      rw [List.length_cons, ← Nat.add_assoc, fileLoop, ht, getline_line hd _ hh.1]
      simp only [Bool.false_eq_true, if_false, hh.2.1, hnuc]
      rfl

/-- A level line at the end of a file without newline is read again and again. -/
theorem levelLines_stale {cv : Conv K} {mb : Nat} {l : List Char} {raw : Raw K} (hl : LevelShows cv l raw 0)
    (hg : raw.gammas = []) : ∀ (n i : Nat) (lev : List (Level K)) (s : In), s.eof = true →
    ∃ s', s'.eof = true ∧ levelLines cv mb n i lev l s =
      (readLevels mb (List.replicate n raw) i lev).bind fun lev' => .ok (lev', l, s')
  | 0, i, lev, s, hs => ⟨s, hs, rfl⟩
  | n + 1, i, lev, s, hs => by
    have hgl : getline s l = (l, ⟨s.rest, s.eof, true⟩) := getline_bad s (by simp [hs]) l
    have hlev : levelLine cv l s = .ok (raw, l, ⟨s.rest, s.eof, true⟩) := by
      obtain ⟨hn, hlen, h1, h2, h3, h4, h5⟩ := hl
      unfold levelLine
      rw [hgl]
      simp only
      rw [substr_ok (by omega), bind_ok', substr_ok (by omega), bind_ok', substr_ok (by omega), bind_ok',
        substr_ok (by omega), bind_ok', substr_ok (by omega), bind_ok', h5]
      simp only [Nat.cast_zero, Int.toNat_zero, gamLines, bind_ok', lt_irrefl, if_false, h1, h2, h3, h4]
      rw [← hg]
    rw [levelLines, hlev, bind_ok', List.replicate_succ, readLevels]
    cases hr : readLevel mb i raw lev with
    | ok lev' =>
      obtain ⟨s', hs', h'⟩ := levelLines_stale hl hg n (i + 1) lev' ⟨s.rest, s.eof, true⟩ hs
      exact ⟨s', hs', by rw [bind_ok', bind_ok', h']⟩
    | exit => exact ⟨s, hs, rfl⟩
    | ub => exact ⟨s, hs, rfl⟩

/-- The same, the line being read for the first time. -/
theorem levelLines_unended {cv : Conv K} {mb : Nat} {l : List Char} {raw : Raw K} (hl : LevelShows cv l raw 0)
    (hg : raw.gammas = []) (n i : Nat) (lev : List (Level K)) (str : List Char) :
    ∃ s', s'.eof = true ∧ levelLines cv mb (n + 1) i lev str ⟨l, false, false⟩ =
      (readLevels mb (List.replicate (n + 1) raw) i lev).bind fun lev' => .ok (lev', l, s') := by
  have hgl : getline ⟨l, false, false⟩ str = (l, ⟨[], true, l.isEmpty⟩) := getline_last l hl.1 str
  have hlev : levelLine cv str ⟨l, false, false⟩ = .ok (raw, l, ⟨[], true, l.isEmpty⟩) := by
    obtain ⟨hn, hlen, h1, h2, h3, h4, h5⟩ := hl
    unfold levelLine
    rw [hgl]
    simp only
    rw [substr_ok (by omega), bind_ok', substr_ok (by omega), bind_ok', substr_ok (by omega), bind_ok',
      substr_ok (by omega), bind_ok', substr_ok (by omega), bind_ok', h5]
    simp only [Nat.cast_zero, Int.toNat_zero, gamLines, bind_ok', lt_irrefl, if_false, h1, h2, h3, h4]
    rw [← hg]
  rw [levelLines, hlev, bind_ok', List.replicate_succ, readLevels]
  cases hr : readLevel mb i raw lev with
  | ok lev' =>
    obtain ⟨s', hs', h'⟩ := levelLines_stale hl hg n (i + 1) lev' ⟨[], true, l.isEmpty⟩ rfl
    exact ⟨s', hs', by rw [bind_ok', bind_ok', h']⟩
  | exit => exact ⟨⟨[], true, true⟩, rfl, rfl⟩
  | ub => exact ⟨⟨[], true, true⟩, rfl, rfl⟩

/-- A file that ends with a newline before the last level: the empty line has no column ten. -/
theorem levelLines_short {cv : Conv K} {mb : Nat} : ∀ (ls : List (LevelRec K)) (n i : Nat) (lev : List (Level K))
    (str : List Char), (∀ x ∈ ls, x.Good cv) → (∃ lev', readLevels mb (ls.map LevelRec.raw) i lev = .ok lev') →
    levelLines cv mb (ls.length + (n + 1)) i lev str ⟨ls.flatMap LevelRec.text, false, false⟩ = .exit
  | [], n, i, lev, str, _, _ => by
    have hc : ([] : List (LevelRec K)).flatMap LevelRec.text = [] := rfl
    rw [List.length_nil, Nat.zero_add, levelLines, hc]
    have : levelLine cv str ⟨[], false, false⟩ = .exit := by
      unfold levelLine
      rw [getline_empty]
      rfl
    rw [this]; rfl
  | x :: ls, n, i, lev, str, h, hr => by
    obtain ⟨str₁, h₁⟩ := levelLine_good (ls.flatMap LevelRec.text) x (h x (by simp)) str
    have ht : (x :: ls).flatMap LevelRec.text = x.text ++ ls.flatMap LevelRec.text := by simp
    have hl : (x :: ls).length + (n + 1) = (ls.length + (n + 1)) + 1 := by simp; omega
    obtain ⟨lev', hr⟩ := hr
    rw [List.map_cons, readLevels] at hr
    cases hx : readLevel mb i x.raw lev with
    | ok lev₁ =>
      rw [hx, bind_ok'] at hr
      rw [hl, levelLines, ht, h₁, bind_ok', hx, bind_ok']
      exact levelLines_short ls n (i + 1) lev₁ str₁ (fun y hy => h y (by simp [hy])) ⟨lev', hr⟩
    | exit => rw [hx] at hr; cases hr
    | ub => rw [hx] at hr; cases hr

end CGMF.LevelText
