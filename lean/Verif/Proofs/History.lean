import Verif.Proofs.Text
import Verif.Spec.History

/-!
# Lemmas for the history file round trip
-/

set_option linter.unusedSimpArgs false

namespace CGMF.History

open CGMF CGMF.Text CGMF.Printer CGMF.Parser CGMF.Spec

/-- Value read back for a `%.<d>f` field. -/
def rv (d : Nat) (x : ℚ) : ℚ := (fixedInt d x : ℚ) / 10 ^ d

theorem rounded_rv (d : Nat) (x : ℚ) : Rounded d x (rv d x) := ⟨fixedInt_err d x, fixedInt d x, rfl⟩

theorem sig6_gVal (x : ℚ) : Sig6 x (gVal x) := gVal_err x

theorem sig6_neg {x y : ℚ} (h : Sig6 x y) : y < 0 ↔ x < 0 := by
  unfold Sig6 at h
  rcases le_or_gt 0 x with hx | hx
  · rw [abs_of_nonneg hx, abs_le] at h
    constructor
    · intro; linarith
    · intro; linarith
  · rw [abs_of_neg hx, abs_le] at h
    constructor
    · intro; linarith
    · intro; linarith

/-- `f lo, f (lo+1), ..., f (lo+n-1)`. -/
def mapFrom {α : Type} (f : Int → α) (lo : Int) : Nat → List α
  | 0 => []
  | n + 1 => f lo :: mapFrom f (lo + 1) n

/-- Concatenated tokens of a loop. -/
def toks (tk : Int → List (List Char)) (lo : Int) : Nat → List (List Char)
  | 0 => []
  | n + 1 => tk lo ++ toks tk (lo + 1) n

theorem tok_prefix (pre ts : List (List Char)) (j m : Nat) (h : pre.length = m) :
    tok (pre ++ ts) (j + m) = tok ts j := by
  unfold tok
  rw [List.getElem?_append_right (by omega), h, Nat.add_sub_cancel]

theorem floatAt_prefix (pre ts : List (List Char)) (j m : Nat) (h : pre.length = m) :
    floatAt (pre ++ ts) (j + m) = floatAt ts j := by
  simp [floatAt, tok_prefix pre ts j m h]

theorem collect_toks {α : Type} (F : List (List Char) → Nat → Res α) (tk : Int → List (List Char))
    (r : Int → α) (k : Nat) (hk : ∀ lo, (tk lo).length = k)
    (hF : ∀ pre suf lo i, pre.length = i * k → F (pre ++ (tk lo ++ suf)) i = .ok (r lo)) :
    ∀ n lo i pre, pre.length = i * k →
      collect (F (pre ++ toks tk lo n)) n i = .ok (mapFrom r lo n) := by
  intro n
  induction n with
  | zero => intro lo i pre _; rfl
  | succ n ih =>
    intro lo i pre hp
    have h1 : pre ++ toks tk lo (n + 1) = pre ++ (tk lo ++ toks tk (lo + 1) n) := rfl
    have h2 := ih (lo + 1) (i + 1) (pre ++ tk lo) (by simp [hp, hk]; ring)
    rw [List.append_assoc] at h2
    rw [collect, h1, hF pre _ lo i hp, Res.bind_ok, h2]
    rfl

/-- Tokens of one particle. -/
def vtok (g : Getters) (i : Int) : List (List Char) :=
  [fmtFixed 3 (g.u i), fmtFixed 3 (g.v i), fmtFixed 3 (g.w i), fmtFixed 3 (g.e i)]

/-- Particle read back. -/
def rvec (g : Getters) (i : Int) : Vec4 := ⟨rv 3 (g.u i), rv 3 (g.v i), rv 3 (g.w i), rv 3 (g.e i)⟩

theorem floatAt_fixed (ts : List (List Char)) (j : Nat) (x : ℚ) (d : Nat) (hd : 0 < d)
    (h : ts[j]? = some (fmtFixed d x)) : floatAt ts j = .ok (rv d x) := by
  simp [floatAt, tok, h, pyFloat_fmtFixed d hd, rv]

theorem floatAt_g (ts : List (List Char)) (j : Nat) (x : ℚ)
    (h : ts[j]? = some (fmtG x)) : floatAt ts j = .ok (gVal x) := by
  simp [floatAt, tok, h, pyFloat_fmtG]

theorem intAt_int (ts : List (List Char)) (j : Nat) (x : Int)
    (h : ts[j]? = some (fmtInt x)) : intAt ts j = .ok x := by
  simp [intAt, tok, h, pyInt_fmtInt]

theorem vecAt_vtok (g : Getters) (k : Nat) (pre suf : List (List Char)) (lo : Int) (i : Nat)
    (h : pre.length = i * k) : vecAt (pre ++ (vtok g lo ++ suf)) k i = .ok (rvec g lo) := by
  simp only [vecAt, floatAt_prefix _ _ _ _ h]
  rw [floatAt_fixed _ 0 (g.u lo) 3 (by norm_num) (by simp [vtok]),
    floatAt_fixed _ 1 (g.v lo) 3 (by norm_num) (by simp [vtok]),
    floatAt_fixed _ 2 (g.w lo) 3 (by norm_num) (by simp [vtok]),
    floatAt_fixed _ 3 (g.e lo) 3 (by norm_num) (by simp [vtok])]
  rfl

theorem collect_vec (g : Getters) (n : Nat) (lo : Int) :
    collect (vecAt (toks (vtok g) lo n) 4) n 0 = .ok (mapFrom (rvec g) lo n) := by
  have := collect_toks (fun d i => vecAt d 4 i) (vtok g) (rvec g) 4 (fun _ => rfl)
    (fun pre suf lo i h => vecAt_vtok g 4 pre suf lo i h) n lo 0 [] (by simp)
  simpa using this

/-- Tokens of one photon with age. -/
def ptok (g : Getters) (age : Int → ℚ) (i : Int) : List (List Char) := vtok g i ++ [fmtG (age i)]

theorem collect_vec5 (g : Getters) (age : Int → ℚ) (n : Nat) (lo : Int) :
    collect (vecAt (toks (ptok g age) lo n) 5) n 0 = .ok (mapFrom (rvec g) lo n) := by
  have := collect_toks (fun d i => vecAt d 5 i) (ptok g age) (rvec g) 5 (fun _ => rfl)
    (fun pre suf lo i h => by
      have := vecAt_vtok g 5 pre ([fmtG (age lo)] ++ suf) lo i h
      simpa [ptok] using this) n lo 0 [] (by simp)
  simpa using this

theorem collect_age (g : Getters) (age : Int → ℚ) (n : Nat) (lo : Int) :
    collect (fun i => floatAt (toks (ptok g age) lo n) (4 + i * 5)) n 0
      = .ok (mapFrom (fun i => gVal (age i)) lo n) := by
  have := collect_toks (fun d i => floatAt d (4 + i * 5)) (ptok g age) (fun i => gVal (age i)) 5
    (fun _ => rfl)
    (fun pre suf lo i h => by
      simp only [floatAt_prefix _ _ _ _ h]
      exact floatAt_g _ 4 (age lo) (by simp [ptok, vtok])) n lo 0 [] (by simp)
  simpa using this

/-! ## Lines -/

theorem isTok_vtok (g : Getters) (i : Int) : ∀ t ∈ vtok g i, IsTok t := by
  intro t ht
  simp only [vtok, List.mem_cons, List.not_mem_nil, or_false] at ht
  rcases ht with rfl | rfl | rfl | rfl <;> exact isTok_fmtFixed _ _

theorem isTok_ptok (g : Getters) (age : Int → ℚ) (i : Int) : ∀ t ∈ ptok g age i, IsTok t := by
  intro t ht
  simp only [ptok, List.mem_append, List.mem_singleton] at ht
  rcases ht with ht | rfl
  · exact isTok_vtok g i t ht
  · exact isTok_fmtG _

theorem isTok_toks (tk : Int → List (List Char)) (h : ∀ i, ∀ t ∈ tk i, IsTok t) (n : Nat) (lo : Int) :
    ∀ t ∈ toks tk lo n, IsTok t := by
  induction n generalizing lo with
  | zero => simp [toks]
  | succ n ih =>
    intro t ht
    simp only [toks, List.mem_append] at ht
    rcases ht with ht | ht
    · exact h _ _ ht
    · exact ih _ _ ht

/-- Text of tokens each followed by a space. -/
def spaced (ts : List (List Char)) : List Char := ts.flatMap (fun t => t ++ [' '])

theorem spaced_append (a b : List (List Char)) : spaced (a ++ b) = spaced a ++ spaced b := by
  simp [spaced]

theorem vec4_spaced (g : Getters) (i : Int) : vec4 g i = spaced (vtok g i) := by
  simp [vec4, spaced, vtok]

theorem photonItem_spaced (w : ℚ) (g : Getters) (age : Int → ℚ) (i : Int) :
    photonItem w g age i = spaced (if w < 0 then ptok g age i else vtok g i) := by
  unfold photonItem
  split_ifs
  · rw [vec4_spaced, ptok, spaced_append]; simp [spaced]
  · exact vec4_spaced g i

theorem forPrint_spaced (body : Int → List Char) (tk : Int → List (List Char))
    (h : ∀ i, body i = spaced (tk i)) (n : Nat) (lo : Int) :
    forPrint body lo n = spaced (toks tk lo n) := by
  induction n generalizing lo with
  | zero => rfl
  | succ n ih => rw [forPrint, toks, spaced_append, ih, h]

theorem spaced_no_newline (ts : List (List Char)) (h : ∀ t ∈ ts, IsTok t) : '\n' ∉ spaced ts := by
  intro hc
  simp only [spaced, List.mem_flatMap, List.mem_append, List.mem_singleton] at hc
  obtain ⟨t, ht, hc | hc⟩ := hc
  · exact tok_no_newline (h t ht) hc
  · exact absurd hc (by decide)

/-- Lines of a particle block. -/
def pLines (tk : Int → List (List Char)) (lo : Int) (n : Nat) : List (List Char) :=
  if n > 0 then [spaced (toks tk lo n)] else []

theorem particleLine_eq (body : Int → List Char) (tk : Int → List (List Char))
    (h : ∀ i, body i = spaced (tk i)) (n : Nat) (lo : Int) :
    particleLine body lo n = (pLines tk lo n).flatMap (fun l => l ++ ['\n']) := by
  unfold particleLine pLines
  rw [forPrint_spaced body tk h]
  split_ifs with hn
  · simp
  · have : n = 0 := by omega
    subst this
    simp [toks, spaced]

/-- Text of tokens each preceded by a space. -/
def preSpaced (ts : List (List Char)) : List Char := ts.flatMap (fun t => ' ' :: t)

theorem preSpaced_no_newline (ts : List (List Char)) (h : ∀ t ∈ ts, IsTok t) :
    '\n' ∉ preSpaced ts := by
  intro hc
  simp only [preSpaced, List.mem_flatMap, List.mem_cons] at hc
  obtain ⟨t, ht, hc | hc⟩ := hc
  · exact absurd hc (by decide)
  · exact tok_no_newline (h t ht) hc

/-- Tokens of the fragment line. -/
def fragToks (f : PFrag) (last : List Char) : List (List Char) :=
  [fmtInt f.a, fmtInt f.z, fmtFixed 3 f.xe, fmtFixed 1 f.j, fmtInt f.p, fmtFixed 3 f.ke,
   fmtFixed 3 f.kePost, fmtInt f.nu, fmtInt f.nug, last]

/-- Tokens of the momentum line. -/
def momToks (f : PFrag) : List (List Char) :=
  [fmtFixed 3 f.pre.1, fmtFixed 3 f.pre.2.1, fmtFixed 3 f.pre.2.2,
   fmtFixed 3 f.post.1, fmtFixed 3 f.post.2.1, fmtFixed 3 f.post.2.2]

theorem fragLine_eq (f : PFrag) (last : List Char) :
    fragLine f last = preSpaced (fragToks f last) ++ ['\n'] := by
  simp [fragLine, preSpaced, fragToks, sp]

theorem momLine_eq (f : PFrag) : momLine f = preSpaced (momToks f) ++ ['\n'] := by
  simp [momLine, preSpaced, momToks, sp]

theorem isTok_fragToks (f : PFrag) (last : List Char) (h : IsTok last) :
    ∀ t ∈ fragToks f last, IsTok t := by
  intro t ht
  simp only [fragToks, List.mem_cons, List.not_mem_nil, or_false] at ht
  rcases ht with rfl | rfl | rfl | rfl | rfl | rfl | rfl | rfl | rfl | rfl <;>
    first | exact isTok_fmtInt _ | exact isTok_fmtFixed _ _ | exact h

theorem isTok_momToks (f : PFrag) : ∀ t ∈ momToks f, IsTok t := by
  intro t ht
  simp only [momToks, List.mem_cons, List.not_mem_nil, or_false] at ht
  rcases ht with rfl | rfl | rfl | rfl | rfl | rfl <;> exact isTok_fmtFixed _ _

theorem split_pre (ts : List (List Char)) (h : ∀ t ∈ ts, IsTok t) :
    pySplit (preSpaced ts ++ ['\n']) = ts := by
  rw [preSpaced, pySplit_pre ts h _ (Or.inl rfl)]
  have : pySplit ['\n'] = [] := by decide
  rw [this, List.append_nil]

theorem split_post (ts : List (List Char)) (h : ∀ t ∈ ts, IsTok t) :
    pySplit (spaced ts ++ ['\n']) = ts := by
  rw [spaced, pySplit_post ts h]
  have : pySplit ['\n'] = [] := by decide
  rw [this, List.append_nil]

/-- Photon tokens for window `w`. -/
def phTok (w : ℚ) (g : Getters) (age : Int → ℚ) (i : Int) : List (List Char) :=
  if w < 0 then ptok g age i else vtok g i

/-- Lines of one fragment without newlines; `lon`, `log` are the index offsets. -/
def fragLines (w : ℚ) (ev : PView) (f : PFrag) (last : List Char) (lon log : Int) :
    List (List Char) :=
  [preSpaced (fragToks f last), preSpaced (momToks f)]
    ++ pLines (vtok ev.cmN) lon f.nu ++ pLines (vtok ev.labN) lon f.nu
    ++ pLines (phTok w ev.phot ev.age) log f.nug

/-- Lines of one event. -/
def evLines (w : ℚ) (ev : PView) : List (List Char) :=
  fragLines w ev ev.light ['0'] 0 0
    ++ (fragLines w ev ev.heavy (fmtInt ev.nuPre) ev.light.nu ev.light.nug
        ++ pLines (vtok ev.preN) 0 ev.nuPre)

theorem printEvent_eq (w : ℚ) (ev : PView) :
    printEvent w ev = (evLines w ev).flatMap (fun l => l ++ ['\n']) := by
  simp only [printEvent, evLines, fragLines, List.flatMap_append, List.flatMap_cons,
    List.flatMap_nil, fragLine_eq, momLine_eq,
    particleLine_eq _ _ (vec4_spaced _),
    particleLine_eq _ (phTok w ev.phot ev.age) (photonItem_spaced w ev.phot ev.age),
    List.append_assoc, List.append_nil]

theorem pLines_no_newline (tk : Int → List (List Char)) (h : ∀ i, ∀ t ∈ tk i, IsTok t)
    (n : Nat) (lo : Int) : ∀ l ∈ pLines tk lo n, '\n' ∉ l := by
  intro l hl
  unfold pLines at hl
  split_ifs at hl
  · simp at hl; subst hl; exact spaced_no_newline _ (isTok_toks tk h n lo)
  · simp at hl

theorem isTok_phTok (w : ℚ) (g : Getters) (age : Int → ℚ) (i : Int) :
    ∀ t ∈ phTok w g age i, IsTok t := by
  unfold phTok
  split_ifs
  · exact isTok_ptok g age i
  · exact isTok_vtok g i

theorem isTok_zero : IsTok ['0'] := ⟨by simp, by decide⟩

theorem fragLines_no_newline (w : ℚ) (ev : PView) (f : PFrag) (last : List Char) (lon log : Int)
    (h : IsTok last) : ∀ l ∈ fragLines w ev f last lon log, '\n' ∉ l := by
  intro l hl
  simp only [fragLines, List.mem_append, List.mem_cons, List.not_mem_nil, or_false] at hl
  rcases hl with (((rfl | rfl) | hl) | hl) | hl
  · exact preSpaced_no_newline _ (isTok_fragToks f last h)
  · exact preSpaced_no_newline _ (isTok_momToks f)
  · exact pLines_no_newline _ (isTok_vtok _) _ _ l hl
  · exact pLines_no_newline _ (isTok_vtok _) _ _ l hl
  · exact pLines_no_newline _ (isTok_phTok w _ _) _ _ l hl

theorem evLines_no_newline (w : ℚ) (ev : PView) : ∀ l ∈ evLines w ev, '\n' ∉ l := by
  intro l hl
  simp only [evLines, List.mem_append] at hl
  rcases hl with hl | hl | hl
  · exact fragLines_no_newline _ _ _ _ _ _ isTok_zero l hl
  · exact fragLines_no_newline _ _ _ _ _ _ (isTok_fmtInt _) l hl
  · exact pLines_no_newline _ (isTok_vtok _) _ _ l hl

/-- Terminated lines. -/
abbrev nl (ls : List (List Char)) : List (List Char) := ls.map (fun l => l ++ ['\n'])

/-! ## Reading one fragment -/

theorem readVecs_lines (g : Getters) (n : Nat) (lo : Int) (rest : List (List Char)) :
    readVecs n (nl (pLines (vtok g) lo n) ++ rest) = .ok (mapFrom (rvec g) lo n, rest) := by
  unfold readVecs pLines
  by_cases hn : n > 0
  · have h : (0 : Int) < n := by exact_mod_cast hn
    simp only [h, hn, if_true, List.map_cons, List.map_nil, List.cons_append, List.nil_append,
      readline]
    rw [split_post _ (isTok_toks _ (isTok_vtok g) n lo)]
    simp only [Int.toNat_natCast]
    rw [collect_vec]
    rfl
  · have : n = 0 := by omega
    subst this
    simp [mapFrom]

/-- Ages read back. -/
def rAges (w : ℚ) (age : Int → ℚ) (lo : Int) (n : Nat) : List ℚ :=
  if w < 0 then mapFrom (fun i => gVal (age i)) lo n else List.replicate n 0

theorem readPhotons_lines (w time : ℚ) (ht : time < 0 ↔ w < 0) (g : Getters) (age : Int → ℚ)
    (n : Nat) (lo : Int) (rest : List (List Char)) :
    readPhotons time n (nl (pLines (phTok w g age) lo n) ++ rest)
      = .ok ((mapFrom (rvec g) lo n, rAges w age lo n), rest) := by
  unfold readPhotons rAges
  by_cases hw : w < 0
  · have htk : phTok w g age = ptok g age := by funext i; simp [phTok, hw]
    by_cases hn : n > 0
    · have h : (0 : Int) < n := by exact_mod_cast hn
      simp only [h, ht.mpr hw, hw, and_self, if_true]
      simp only [readPhotons5, pLines, hn, if_true, List.map_cons, List.map_nil, List.cons_append,
        List.nil_append, readline]
      rw [split_post _ (isTok_toks _ (isTok_phTok w g age) n lo)]
      simp only [Int.toNat_natCast, htk]
      rw [collect_vec5, collect_age]
      rfl
    · have : n = 0 := by omega
      subst this
      simp [readPhotons4, readVecs, pLines, mapFrom, hw]
  · have htk : phTok w g age = vtok g := by funext i; simp [phTok, hw]
    have htm : ¬ time < 0 := fun h => hw (ht.mp h)
    simp only [htm, and_false, if_false, hw, readPhotons4, htk]
    rw [readVecs_lines]
    simp

/-- Fragment read back, apart from the pre-fission data. -/
def rFrag (w : ℚ) (ev : PView) (f : PFrag) (lon log : Int) (npn : Int) (pren : List Vec4) : PyFrag :=
  { a := f.a, z := f.z, xe := rv 3 f.xe, j := rv 1 f.j, p := f.p, ke := rv 3 f.ke,
    kePost := rv 3 f.kePost, nn := f.nu, ng := f.nug, npn := npn,
    pre := (rv 3 f.pre.1, rv 3 f.pre.2.1, rv 3 f.pre.2.2),
    post := (rv 3 f.post.1, rv 3 f.post.2.1, rv 3 f.post.2.2),
    cm := mapFrom (rvec ev.cmN) lon f.nu, lab := mapFrom (rvec ev.labN) lon f.nu,
    phot := mapFrom (rvec ev.phot) log f.nug, ages := rAges w ev.age log f.nug, pren := pren }

theorem readFragment_lines (w time : ℚ) (ht : time < 0 ↔ w < 0) (ev : PView) (f : PFrag)
    (npn : Int) (last : List Char) (hl : last = fmtInt npn) (lon log : Int) (isLight : Bool)
    (pren : List Vec4) (rest rest' : List (List Char))
    (hpre : readPre isLight npn rest = .ok (pren, rest')) :
    readFragment time isLight (preSpaced (fragToks f last) ++ ['\n'])
      (nl ((fragLines w ev f last lon log).tail) ++ rest)
      = .ok (rFrag w ev f lon log npn pren, rest') := by
  have hlast : IsTok last := hl ▸ isTok_fmtInt npn
  unfold readFragment
  rw [split_pre _ (isTok_fragToks f last hlast)]
  simp only
  rw [intAt_int _ 0 f.a (by simp [fragToks]), intAt_int _ 1 f.z (by simp [fragToks]),
    floatAt_fixed _ 2 f.xe 3 (by norm_num) (by simp [fragToks]),
    floatAt_fixed _ 3 f.j 1 (by norm_num) (by simp [fragToks]),
    intAt_int _ 4 f.p (by simp [fragToks]),
    floatAt_fixed _ 5 f.ke 3 (by norm_num) (by simp [fragToks]),
    floatAt_fixed _ 6 f.kePost 3 (by norm_num) (by simp [fragToks]),
    intAt_int _ 7 f.nu (by simp [fragToks]), intAt_int _ 8 f.nug (by simp [fragToks]),
    intAt_int _ 9 npn (by simp [fragToks, hl])]
  have htail : nl (fragLines w ev f last lon log).tail ++ rest =
      (preSpaced (momToks f) ++ ['\n']) :: (nl (pLines (vtok ev.cmN) lon f.nu) ++
        (nl (pLines (vtok ev.labN) lon f.nu) ++
          (nl (pLines (phTok w ev.phot ev.age) log f.nug) ++ rest))) := by
    simp [fragLines, nl]
  rw [htail]
  simp only [Res.bind_ok, readline]
  rw [split_pre _ (isTok_momToks f)]
  rw [floatAt_fixed _ 0 f.pre.1 3 (by norm_num) (by simp [momToks]),
    floatAt_fixed _ 1 f.pre.2.1 3 (by norm_num) (by simp [momToks]),
    floatAt_fixed _ 2 f.pre.2.2 3 (by norm_num) (by simp [momToks]),
    floatAt_fixed _ 3 f.post.1 3 (by norm_num) (by simp [momToks]),
    floatAt_fixed _ 4 f.post.2.1 3 (by norm_num) (by simp [momToks]),
    floatAt_fixed _ 5 f.post.2.2 3 (by norm_num) (by simp [momToks])]
  simp only [Res.bind_ok]
  rw [readVecs_lines]; simp only [Res.bind_ok]
  rw [readVecs_lines]; simp only [Res.bind_ok]
  rw [readPhotons_lines w time ht]; simp only [Res.bind_ok]
  rw [hpre]; rfl

/-- Pre-fission entries of the heavy row. -/
def rPre (ev : PView) : List Vec4 :=
  if 0 < ev.nuPre then mapFrom (rvec ev.preN) 0 ev.nuPre else [⟨0, 0, 0, 0⟩]

theorem readPre_heavy (ev : PView) (rest : List (List Char)) :
    readPre false ev.nuPre (nl (pLines (vtok ev.preN) 0 ev.nuPre) ++ rest)
      = .ok (rPre ev, rest) := by
  unfold readPre rPre
  by_cases h : 0 < ev.nuPre
  · have h' : (0 : Int) < ev.nuPre := by exact_mod_cast h
    simp only [h, h', if_true, Bool.false_eq_true, if_false]
    exact readVecs_lines ev.preN ev.nuPre 0 rest
  · have h0 : ev.nuPre = 0 := by omega
    simp [h0, pLines]

/-- The two rows of an event. -/
def rEvent (w : ℚ) (ev : PView) : List PyFrag :=
  [rFrag w ev ev.light 0 0 0 [], rFrag w ev ev.heavy ev.light.nu ev.light.nug ev.nuPre (rPre ev)]

theorem fragLines_cons (w : ℚ) (ev : PView) (f : PFrag) (last : List Char) (lon log : Int) :
    fragLines w ev f last lon log
      = preSpaced (fragToks f last) :: (fragLines w ev f last lon log).tail := by
  simp [fragLines]

theorem readLoop_line (time : ℚ) (max : Option Nat) (fuel c : Nat) (b : Bool) (line : List Char)
    (ls : List (List Char)) (hl : line ≠ []) (hm : ¬ limitReached max (c + 1) = true) :
    readLoop time max (fuel + 1) c b (line :: ls) = (do
      let x ← readFragment time b line ls
      let fs ← readLoop time max fuel (c + 1) (!b) x.2
      pure (x.1 :: fs)) := by
  simp [readLoop, readline, hl, hm]

theorem readLoop_events (w time : ℚ) (ht : time < 0 ↔ w < 0) (nev : Option Nat) (evs : List PView) :
    ∀ (fuel k : Nat), 2 * evs.length < fuel →
      readLoop time (nev.map (2 * ·)) fuel (2 * k) true (nl (evs.flatMap (evLines w)))
        = .ok ((match nev with | none => evs | some n => evs.take (n - k)).flatMap (rEvent w)) := by
  induction evs with
  | nil =>
    intro fuel k hf
    obtain ⟨fuel, rfl⟩ : ∃ f, fuel = f + 1 := ⟨fuel - 1, by simp at hf; omega⟩
    simp only [readLoop, List.flatMap_nil, List.map_nil, readline, if_true]
    cases nev <;> simp
  | cons ev evs ih =>
    intro fuel k hf
    simp only [List.length_cons] at hf
    obtain ⟨fuel, rfl⟩ : ∃ f, fuel = f + 2 := ⟨fuel - 2, by omega⟩
    by_cases hlim : limitReached (nev.map (2 * ·)) (2 * k + 1) = true
    · have : ∃ n, nev = some n ∧ n ≤ k := by
        cases nev with
        | none => simp [limitReached] at hlim
        | some n => exact ⟨n, rfl, by simp [limitReached] at hlim; omega⟩
      obtain ⟨n, rfl, hn⟩ := this
      rw [readLoop]
      simp only [hlim, if_true]
      rw [Nat.sub_eq_zero_of_le hn]; simp
    · have hlim2 : ¬ limitReached (nev.map (2 * ·)) (2 * k + 1 + 1) = true := by
        cases nev with
        | none => simp [limitReached]
        | some n => simp [limitReached] at hlim ⊢; omega
      have hlines : nl ((ev :: evs).flatMap (evLines w)) =
          (preSpaced (fragToks ev.light ['0']) ++ ['\n']) ::
            (nl (fragLines w ev ev.light ['0'] 0 0).tail ++
              ((preSpaced (fragToks ev.heavy (fmtInt ev.nuPre)) ++ ['\n']) ::
                (nl (fragLines w ev ev.heavy (fmtInt ev.nuPre) ev.light.nu ev.light.nug).tail ++
                  (nl (pLines (vtok ev.preN) 0 ev.nuPre) ++ nl (evs.flatMap (evLines w)))))) := by
        rw [List.flatMap_cons, evLines, fragLines_cons, fragLines_cons w ev ev.heavy]
        simp [nl]
      rw [hlines, readLoop_line _ _ _ _ _ _ _ (by simp) hlim]
      rw [readFragment_lines w time ht ev ev.light 0 ['0'] (by decide) 0 0 true [] _ _
        (by rfl)]
      simp only [Res.bind_ok, Bool.not_true]
      rw [readLoop_line _ _ _ _ _ _ _ (by simp) hlim2]
      rw [readFragment_lines w time ht ev ev.heavy ev.nuPre _ rfl _ _ false (rPre ev) _ _
        (readPre_heavy ev _)]
      simp only [Res.bind_ok, Bool.not_false]
      have := ih fuel (k + 1) (by omega)
      rw [show 2 * (k + 1) = 2 * k + 1 + 1 by ring] at this
      rw [this]
      simp only [Res.bind_ok, Res.pure_eq]
      congr 1
      cases nev with
      | none => simp [rEvent]
      | some n =>
        have hk : k < n := by simp [limitReached] at hlim; omega
        have : n - k = (n - (k + 1)) + 1 := by omega
        simp only
        rw [this, List.take_succ_cons, List.flatMap_cons]
        simp [rEvent]

/-! ## Header -/

theorem headerLine_eq (zaid : Int) (einc w : ℚ) :
    ∃ l, headerLine zaid einc w = l ++ ['\n'] ∧ '\n' ∉ l := by
  refine ⟨'#' :: ' ' :: fmtInt5 zaid ++ sp (fmtG einc) ++ sp (fmtG w), by simp [headerLine], ?_⟩
  intro hc
  simp only [sp, fmtInt5, List.mem_append, List.mem_cons, List.mem_replicate] at hc
  have h1 := tok_no_newline (isTok_fmtInt zaid)
  have h2 := tok_no_newline (isTok_fmtG einc)
  have h3 := tok_no_newline (isTok_fmtG w)
  have n1 : ¬ '\n' = '#' := by decide
  have n2 : ¬ '\n' = ' ' := by decide
  tauto

theorem readHeader_line (zaid : Int) (einc w : ℚ) :
    readHeader (headerLine zaid einc w) = .ok ⟨zaid, gVal einc, gVal w⟩ := by
  have hs : pySplit (' ' :: (fmtInt5 zaid ++ sp (fmtG einc) ++ sp (fmtG w) ++ ['\n']))
      = [fmtInt zaid, fmtG einc, fmtG w] := by
    rw [pySplit_ws (by decide)]
    simp only [fmtInt5, List.append_assoc]
    simp only [sp, List.cons_append]
    rw [pySplit_spaces, pySplit_tok_ws (isTok_fmtInt _) (by decide),
      pySplit_tok_ws (isTok_fmtG _) (by decide) (fmtG w ++ ['\n']),
      pySplit_tok_ws (isTok_fmtG _) (by decide) []]
    rfl
  have : headerLine zaid einc w =
      '#' :: (' ' :: (fmtInt5 zaid ++ sp (fmtG einc) ++ sp (fmtG w) ++ ['\n'])) := by
    simp [headerLine]
  rw [this]
  simp only [readHeader]
  rw [hs, intAt_int _ 0 zaid (by simp), floatAt_g _ 1 einc (by simp)]
  simp only [headerTime, List.length_cons, List.length_nil]
  rw [if_pos (by norm_num), floatAt_g _ _ w (by simp)]
  rfl

theorem readHistory_file (nev : Option Nat) (zaid : Int) (einc w : ℚ) (evs : List PView) :
    readHistory nev (rankFile 0 zaid einc w evs)
      = .ok (⟨zaid, gVal einc, gVal w⟩,
          (match nev with | none => evs | some n => evs.take n).flatMap (rEvent w)) := by
  obtain ⟨l, hl, hn⟩ := headerLine_eq zaid einc w
  have htxt : rankFile 0 zaid einc w evs
      = (l :: evs.flatMap (evLines w)).flatMap (fun l => l ++ ['\n']) := by
    simp only [rankFile, if_true, hl, List.flatMap_cons]
    congr 1
    rw [List.flatMap_assoc]
    apply List.flatMap_congr
    intro a _
    exact printEvent_eq w a
  have hlines := fileLines_flatMap (l :: evs.flatMap (evLines w)) (by
    intro x hx
    simp only [List.mem_cons, List.mem_flatMap] at hx
    rcases hx with rfl | ⟨ev, _, hx⟩
    · exact hn
    · exact evLines_no_newline w ev x hx)
  unfold readHistory
  rw [htxt, hlines]
  simp only [List.map_cons, readline]
  rw [← hl, readHeader_line]
  simp only [Res.bind_ok]
  have hlen : 2 * evs.length < (nl (evs.flatMap (evLines w))).length + 1 := by
    have : ∀ evs : List PView, 2 * evs.length ≤ (evs.flatMap (evLines w)).length := by
      intro evs
      induction evs with
      | nil => simp
      | cons e es ih =>
        rw [List.flatMap_cons, List.length_append, List.length_cons]
        have : 2 ≤ (evLines w e).length := by simp [evLines, fragLines]
        omega
    have := this evs
    simp only [List.length_map]; omega
  have := readLoop_events w (gVal w) (sig6_neg (sig6_gVal w)) nev evs _ 0 hlen
  simp only [Nat.mul_zero, Nat.sub_zero] at this
  rw [this]
  rfl

end CGMF.History
