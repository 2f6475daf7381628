import Verif.Tactics
import Verif.Model.Cmd
import Verif.Spec.Cmd
import Verif.Props.Input
import Mathlib.Algebra.Order.Ring.Rat

/-!
# C98: the command line
-/

namespace CGMF.Props

open CGMF CGMF.Cmd CGMF.Driver CGMF.Input CGMF.Spec

variable {K : Type} [Field K] [LinearOrder K] [IsStrictOrderedRing K]

/-- The options of a command line in order. -/
def optsOf (as : List Arg) : List (Char × List Char) :=
  as.flatMap fun a => match a with
    | .opt c v _ => [(c, v)]
    | _ => []

/-- Scanning finds the options in order; whatever follows `--` is not looked at. -/
theorem getopt_words (rest : List (List Char)) (hrest : getopt rest = []) : ∀ as : List Arg, (∀ a ∈ as, a.Good) →
    getopt (as.flatMap Arg.words ++ rest) = optsOf as
  | [], _ => by simpa [optsOf] using hrest
  | .opt c v joined :: as, h => by
    have hg : c ∈ letters ∧ (joined = true → v ≠ []) := h (.opt c v joined) (by simp)
    have ih := getopt_words rest hrest as (fun a ha => h a (by simp [ha]))
    have hd : ¬ (c = '-' ∧ v = []) := by rintro ⟨rfl, -⟩; exact absurd hg.1 (by decide)
    have hd' : ¬ (c = '-' ∧ ([] : List Char) = []) := by rintro ⟨rfl, -⟩; exact absurd hg.1 (by decide)
    cases joined with
    | true =>
      show getopt (('-' :: c :: v) :: (as.flatMap Arg.words ++ rest)) = (c, v) :: optsOf as
      rw [getopt, if_neg hd, cluster, if_pos hg.1, if_neg (hg.2 rfl)]
      simp only
      rw [ih]
    | false =>
      show getopt (['-', c] :: v :: (as.flatMap Arg.words ++ rest)) = (c, v) :: optsOf as
      rw [getopt, if_neg hd', cluster, if_pos hg.1]
      simp only [if_true]
      rw [ih]
  | .flag c :: as, h => by
    have hg : c ∉ ['e', 'n', 'i', 'f', 't', 'd', 's', '-'] := h (.flag c) (by simp)
    have ih := getopt_words rest hrest as (fun a ha => h a (by simp [ha]))
    have h1 : c ∉ letters := by
      intro hc; apply hg
      simp only [letters, List.mem_cons, List.not_mem_nil, or_false] at hc ⊢
      tauto
    have hd : ¬ (c = '-' ∧ ([] : List Char) = []) := by rintro ⟨rfl, -⟩; exact hg (by decide)
    show getopt (['-', c] :: (as.flatMap Arg.words ++ rest)) = optsOf as
    rw [getopt, if_neg hd, cluster, if_neg h1, cluster]
    exact ih
  | .word w :: as, h => by
    have hg : w.head? ≠ some '-' := h (.word w) (by simp)
    have ih := getopt_words rest hrest as (fun a ha => h a (by simp [ha]))
    show getopt (w :: (as.flatMap Arg.words ++ rest)) = optsOf as
    rw [getopt]
    · exact ih
    · rintro c cs rfl; simp at hg

/-- The last value assigned. -/
theorem foldl_assign (atoi : List Char → Int) (atof : List Char → K) : ∀ (as : List Arg) (o : Opts K), (∀ a ∈ as, a.Good) →
    (optsOf as).foldl (assign atoi atof) o =
      ⟨((lastArg 'e' as).map atof).getD o.einc, ((lastArg 'n' as).map atoi).getD o.nevents,
        ((lastArg 'i' as).map atoi).getD o.zaid, (lastArg 'f' as).getD o.file, ((lastArg 't' as).map atof).getD o.window,
        (lastArg 'd' as).getD o.path, ((lastArg 's' as).map atoi).getD o.start⟩
  | [], o, _ => by simp [optsOf, lastArg]
  | .opt c v j :: as, o, h => by
    have hg : c ∈ ['e', 'n', 'i', 'f', 't', 'd', 's'] := (h (.opt c v j) (by simp)).1
    have ih := foldl_assign atoi atof as (assign atoi atof o (c, v)) (fun a ha => h a (by simp [ha]))
    show (optsOf as).foldl (assign atoi atof) (assign atoi atof o (c, v)) = _
    rw [ih]
    simp only [List.mem_cons, List.not_mem_nil, or_false] at hg
    have hl : ∀ d, lastArg d (.opt c v j :: as) = (lastArg d as).or (if c = d then some v else none) := fun _ => rfl
    simp only [hl]
    have e1 : ∀ {α : Type} (x : Option (List Char)) (f : List Char → α) (y : α),
        ((x.or (some v)).map f).getD y = (x.map f).getD (f v) := by
      intro α x f y; cases x <;> rfl
    have e2 : ∀ (x : Option (List Char)) (y : List Char), (x.or (some v)).getD y = x.getD v := by
      intro x y; cases x <;> rfl
    rcases hg with rfl | rfl | rfl | rfl | rfl | rfl | rfl <;> simp [assign, e1, e2]
  | .flag c :: as, o, h => by
    have ih := foldl_assign atoi atof as o (fun a ha => h a (by simp [ha]))
    have hl : ∀ d, lastArg d (.flag c :: as) = lastArg d as := fun d => Option.or_none
    simp only [hl]
    exact ih
  | .word w :: as, o, h => by
    have ih := foldl_assign atoi atof as o (fun a ha => h a (by simp [ha]))
    have hl : ∀ d, lastArg d (.word w :: as) = lastArg d as := fun d => Option.or_none
    simp only [hl]
    exact ih

/-- **C98** (scanning).  For every command line of options, unknown flags and operands in any order, each setting is the
last value given for its letter, whatever that value looks like (also a negative number), and its default when the
letter is absent.  Words after `--` change nothing. -/
theorem C98_settings (atoi : List Char → Int) (atof : List Char → K) (tw : K) (as : List Arg) (hg : ∀ a ∈ as, a.Good)
    (rest : List (List Char)) (hr : rest = [] ∨ ∃ r, rest = ['-', '-'] :: r) :
    options atoi atof tw (as.flatMap Arg.words ++ rest) =
      { einc := ((lastArg 'e' as).map atof).getD (-1)
        nevents := ((lastArg 'n' as).map atoi).getD 0
        zaid := ((lastArg 'i' as).map atoi).getD 0
        file := (lastArg 'f' as).getD []
        window := ((lastArg 't' as).map atof).getD tw
        path := (lastArg 'd' as).getD []
        start := ((lastArg 's' as).map atoi).getD 1 } := by
  unfold options
  have hrest : getopt rest = [] := by
    rcases hr with rfl | ⟨r, rfl⟩
    · rfl
    · rw [getopt, if_pos ⟨rfl, rfl⟩]
  rw [getopt_words rest hrest as hg, foldl_assign atoi atof as _ hg]
  rfl

theorem lastArg_of_mem {c : Char} : ∀ {as : List Arg}, (as.filterMap Arg.letter?).Nodup →
    ∀ v, lastArg c as = some v ↔ ∃ j, Arg.opt c v j ∈ as
  | [], _, v => by simp [lastArg]
  | .flag d :: as, hn, v => by
    have ih := lastArg_of_mem (c := c) (as := as) (by rw [List.filterMap_cons] at hn; exact hn) v
    have : lastArg c (.flag d :: as) = lastArg c as := Option.or_none
    rw [this, ih]; simp
  | .word w :: as, hn, v => by
    have ih := lastArg_of_mem (c := c) (as := as) (by rw [List.filterMap_cons] at hn; exact hn) v
    have : lastArg c (.word w :: as) = lastArg c as := Option.or_none
    rw [this, ih]; simp
  | .opt d u j :: as, hn, v => by
    have hn' : d ∉ as.filterMap Arg.letter? ∧ (as.filterMap Arg.letter?).Nodup := by
      rw [List.filterMap_cons] at hn
      exact List.nodup_cons.1 hn
    have ih := lastArg_of_mem (c := c) hn'.2 v
    have hl : lastArg c (.opt d u j :: as) = (lastArg c as).or (if d = c then some u else none) := rfl
    rw [hl]
    by_cases hdc : d = c
    · subst hdc
      have hnone : lastArg d as = none := by
        cases hl : lastArg d as with
        | none => rfl
        | some x =>
          obtain ⟨j', hj⟩ := (lastArg_of_mem (c := d) hn'.2 x).1 hl
          exact absurd (List.mem_filterMap.mpr ⟨_, hj, (rfl : Arg.letter? _ = some d)⟩) hn'.1
      rw [hnone, if_pos rfl]
      constructor
      · intro h; cases h; exact ⟨j, by simp⟩
      · rintro ⟨j', hm⟩
        rcases List.mem_cons.1 hm with h | h
        · cases h; rfl
        · exact absurd (List.mem_filterMap.mpr ⟨_, h, (rfl : Arg.letter? _ = some d)⟩) hn'.1
    · rw [if_neg hdc, Option.or_none, ih]
      simp [Ne.symm hdc]

/-- **C98** (order).  With each letter at most once, the order of the command line does not matter. -/
theorem C98_order (atoi : List Char → Int) (atof : List Char → K) (tw : K) (as bs : List Arg) (hp : as.Perm bs)
    (hg : ∀ a ∈ as, a.Good)
    (hn : (as.filterMap Arg.letter?).Nodup) :
    options atoi atof tw (as.flatMap Arg.words) = options atoi atof tw (bs.flatMap Arg.words) := by
  have hn' : (bs.filterMap Arg.letter?).Nodup :=
    (hp.filterMap _).nodup_iff.1 hn
  have hl : ∀ c, lastArg c as = lastArg c bs := by
    intro c
    apply Option.ext
    intro v
    rw [lastArg_of_mem hn v, lastArg_of_mem hn' v]
    simp only [hp.mem_iff]
  have h1 := C98_settings atoi atof tw as hg [] (Or.inl rfl)
  have h2 := C98_settings atoi atof tw bs (fun a ha => hg a (hp.mem_iff.2 ha)) [] (Or.inl rfl)
  rw [List.append_nil] at h1 h2
  rw [h1, h2]
  simp only [hl]

/-- `-n 10 -i 92235` and `-i92235 -n 10` are such command lines. -/
example (atoi : List Char → Int) (atof : List Char → ℚ) (tw : ℚ) :
    options atoi atof tw ["-n".toList, "10".toList, "-i92235".toList] =
      options atoi atof tw ["-i92235".toList, "-n".toList, "10".toList] :=
  C98_order atoi atof tw [.opt 'n' "10".toList false, .opt 'i' "92235".toList true]
    [.opt 'i' "92235".toList true, .opt 'n' "10".toList false] (List.Perm.swap _ _ _)
    (by simp [Arg.Good]) (by simp [Arg.letter?])

/-- **C98** (what holds).  With a positive number of events, a supported reaction, a valid window, a data directory and
a file that can be created, each rank writes the events of its own seeds for the given reaction, rank 0 with the header. -/
theorem C98_partial {S Ev : Type} (atoi : List Char → Int) (atof : List Char → K) (tw : K) (E : Engine S K)
    (gen : Reaction K → K → S → Ev × S) (w : World) (ip : Int) (rank : List Char) (as : List Arg) (hg : ∀ a ∈ as, a.Good)
    (vi ve vn : List Char) (hi : lastArg 'i' as = some vi) (he : lastArg 'e' as = some ve) (hn : lastArg 'n' as = some vn)
    (hpos : 0 < atoi vn) (hs : Supported (atoi vi) (atof ve))
    (window : K) (hw : window = ((lastArg 't' as).map atof).getD tw) (hw' : 0 ≤ window ∨ window = -1)
    (d : List Char) (hd : setdatapath w.isDir w.inst w.build
      (if (lastArg 'd' as).getD [] = [] then w.cgmfdata.getD [] else (lastArg 'd' as).getD []) = .ok d)
    (name : List Char) (hname : name = outName (atoi vn) ((lastArg 'f' as).getD []) rank) (hc : w.canWrite name = true)
    (evs : List Ev) (hrun : runRank E gen ⟨atoi vi, atof ve⟩ window (atoi vn).toNat
      (((lastArg 's' as).map atoi).getD 1) ip = .ok evs) :
    main atoi atof tw E gen w ip rank (as.flatMap Arg.words) =
      .ok (.histories name (if ip = 0 then some (atoi vi, atof ve, window) else none) evs) := by
  have ho := C98_settings atoi atof tw as hg [] (Or.inl rfl)
  rw [List.append_nil] at ho
  rw [hi, he, hn, ← hw] at ho
  simp only [Option.map_some, Option.getD_some] at ho
  have hcw : checkWindow window = .ok () := by
    unfold checkWindow
    rcases hw' with h | h
    · rw [if_neg (not_lt.mpr h)]
    · rw [if_neg (not_not.mpr h)]; simp
  unfold main readUserInput
  rw [ho]
  simp only
  rw [hcw]
  show ((setdatapath w.isDir w.inst w.build _).bind _).bind _ = _
  rw [hd]
  show (if atoi vn < 0 then _ else _) = _
  rw [if_neg (by omega)]
  show (if w.canWrite (outName (atoi vn) ((lastArg 'f' as).getD []) rank) = false then _ else _) = _
  rw [← hname, hc, if_neg (by simp)]
  show (if atoi vn = 0 then _ else _) = _
  rw [if_neg (by omega)]
  show (checkInput (atoi vi) (atof ve)).bind _ = _
  rw [(C01_gate_exact _ _).2 hs]
  show (runRank E gen ⟨atoi vi, atof ve⟩ window (atoi vn).toNat (((lastArg 's' as).map atoi).getD 1) ip).bind _ = _
  rw [hrun]
  rfl

/-- **C98 is false** without `-n`, which the manual calls optional, and with `-n 0` or a count that is not a number: whatever else is given, rank 0 dereferences a null
pointer (or cannot start at all). -/
theorem C98_refuted {S Ev : Type} (atoi : List Char → Int) (atof : List Char → K) (tw : K) (E : Engine S K)
    (gen : Reaction K → K → S → Ev × S) (w : World) (rank : List Char) (as : List Arg) (hg : ∀ a ∈ as, a.Good)
    (hn : ((lastArg 'n' as).map atoi).getD 0 = 0) (j : Job K Ev) :
    main atoi atof tw E gen w 0 rank (as.flatMap Arg.words) ≠ .ok j ∧
    ((0 ≤ ((lastArg 't' as).map atof).getD tw) → (∃ d, setdatapath w.isDir w.inst w.build
      (if (lastArg 'd' as).getD [] = [] then w.cgmfdata.getD [] else (lastArg 'd' as).getD []) = .ok d) →
      main atoi atof tw E gen w 0 rank (as.flatMap Arg.words) = .ub) := by
  have ho := C98_settings atoi atof tw as hg [] (Or.inl rfl)
  rw [List.append_nil] at ho
  have hzero : (options atoi atof tw (as.flatMap Arg.words)).nevents = 0 := by rw [ho]; exact hn
  have key : main atoi atof tw E gen w 0 rank (as.flatMap Arg.words) =
      ((readUserInput atoi atof tw w rank (as.flatMap Arg.words)).bind fun _ => (.ub : Res (Job K Ev))) := by
    unfold main
    cases hr : readUserInput atoi atof tw w rank (as.flatMap Arg.words) with
    | ok r =>
      have : r.1 = options atoi atof tw (as.flatMap Arg.words) := by
        unfold readUserInput at hr
        simp only at hr
        cases h1 : checkWindow (options atoi atof tw (as.flatMap Arg.words)).window with
        | ok u =>
          rw [h1] at hr
          change (Res.bind _ _) = _ at hr
          cases h2 : setdatapath w.isDir w.inst w.build
            (if (options atoi atof tw (as.flatMap Arg.words)).path = [] then w.cgmfdata.getD []
              else (options atoi atof tw (as.flatMap Arg.words)).path) with
          | ok dd => 
            change (Res.bind (setdatapath w.isDir w.inst w.build
              (if (options atoi atof tw (as.flatMap Arg.words)).path = [] then w.cgmfdata.getD []
              else (options atoi atof tw (as.flatMap Arg.words)).path)) _) = _ at hr
            rw [h2] at hr; cases hr; rfl
          | exit => change (Res.bind (setdatapath w.isDir w.inst w.build
              (if (options atoi atof tw (as.flatMap Arg.words)).path = [] then w.cgmfdata.getD []
              else (options atoi atof tw (as.flatMap Arg.words)).path)) _) = _ at hr
                    rw [h2] at hr; cases hr
          | ub => change (Res.bind (setdatapath w.isDir w.inst w.build
              (if (options atoi atof tw (as.flatMap Arg.words)).path = [] then w.cgmfdata.getD []
              else (options atoi atof tw (as.flatMap Arg.words)).path)) _) = _ at hr
                  rw [h2] at hr; cases hr
        | exit => rw [h1] at hr; cases hr
        | ub => rw [h1] at hr; cases hr
      show (if r.1.nevents < 0 then _ else _) = _
      rw [this, hzero]
      simp only [lt_irrefl, if_false, if_true]
      split_ifs <;> rfl
    | exit => rfl
    | ub => rfl
  constructor
  · rw [key]
    cases readUserInput atoi atof tw w rank (as.flatMap Arg.words) <;> simp [Res.bind]
  · rintro hw ⟨d, hd⟩
    rw [key]
    unfold readUserInput
    rw [ho]
    simp only
    unfold checkWindow
    rw [if_neg (not_lt.mpr hw)]
    show ((setdatapath w.isDir w.inst w.build _).bind _).bind _ = _
    rw [hd]
    rfl

/-- **C98** (required options).  Without `-i`, or without `-e`, no event is generated: with a positive number of events the
program stops. -/
theorem C98_required {S Ev : Type} (atoi : List Char → Int) (atof : List Char → K) (tw : K) (E : Engine S K)
    (gen : Reaction K → K → S → Ev × S) (w : World) (ip : Int) (rank : List Char) (as : List Arg) (hg : ∀ a ∈ as, a.Good)
    (hm : lastArg 'i' as = none ∨ lastArg 'e' as = none) (name : List Char) (h : Option (Int × K × K)) (evs : List Ev)
    (hev : evs ≠ []) :
    main atoi atof tw E gen w ip rank (as.flatMap Arg.words) ≠ .ok (.histories name h evs) := by
  have ho := C98_settings atoi atof tw as hg [] (Or.inl rfl)
  rw [List.append_nil] at ho
  set o := options atoi atof tw (as.flatMap Arg.words) with hodef
  have hns : ¬ Supported o.zaid o.einc := by
    rw [ho]
    unfold Supported
    rcases hm with hm | hm
    · rw [hm]; simp [spontaneousIsotopes, inducedIsotopes]
    · rw [hm]
      simp only [Option.map_none, Option.getD_none, not_or, not_and]
      constructor
      · intro h0; exfalso; have : (0 : K) < 1 := zero_lt_one; linarith
      · intro h0; exfalso; have : (0 : K) < 1 := zero_lt_one; linarith [h0]
  intro hmain
  unfold main readUserInput at hmain
  simp only [← hodef] at hmain
  cases h1 : checkWindow o.window with
  | exit => rw [h1] at hmain; cases hmain
  | ub => rw [h1] at hmain; cases hmain
  | ok u =>
    rw [h1] at hmain
    simp only [Res.bind] at hmain
    cases h2 : setdatapath w.isDir w.inst w.build (if o.path = [] then w.cgmfdata.getD [] else o.path) with
    | exit => rw [h2] at hmain; cases hmain
    | ub => rw [h2] at hmain; cases hmain
    | ok d =>
      rw [h2] at hmain
      simp only at hmain
      cases h3 : checkInput o.zaid o.einc with
      | ok u => exact hns ((C01_gate_exact _ _).1 h3)
      | exit =>
        rw [h3] at hmain
        split_ifs at hmain <;> cases hmain
        exact hev rfl
      | ub =>
        rw [h3] at hmain
        split_ifs at hmain <;> cases hmain
        exact hev rfl

/-! ## Example: `-i 98252 -h -n7 extra -e0 -t -1 -n 3` -/

/-- A decimal reader for the examples. -/
def atoiC (w : List Char) : Int :=
  match w with
  | '-' :: ds => -(ds.foldl (fun a c => 10 * a + ((c.toNat : Int) - 48)) 0)
  | ds => ds.foldl (fun a c => 10 * a + ((c.toNat : Int) - 48)) 0

/-- The example: an operand, an unknown flag, the count given twice, a negative window as next word. -/
def lineC : List Arg :=
  [.opt 'i' "98252".toList false, .flag 'h', .opt 'n' "7".toList true, .word "extra".toList, .opt 'e' "0".toList true,
    .opt 't' "-1".toList false, .opt 'n' "3".toList false]

instance : (a : Arg) → Decidable a.Good
  | .opt c v j => inferInstanceAs (Decidable (c ∈ _ ∧ (j = true → v ≠ [])))
  | .flag c => inferInstanceAs (Decidable (c ∉ _))
  | .word w => inferInstanceAs (Decidable (w.head? ≠ some '-'))

theorem lineC_good : ∀ a ∈ lineC, a.Good := by decide +kernel

example : lineC.flatMap Arg.words = ["-i".toList, "98252".toList, "-h".toList, "-n7".toList, "extra".toList, "-e0".toList,
    "-t".toList, "-1".toList, "-n".toList, "3".toList] := by decide

example : options atoiC (fun w => ((atoiC w : Int) : ℚ)) (1 / 100000000)
    (lineC.flatMap Arg.words ++ [['-', '-'], "-n".toList, "5".toList]) =
    ⟨0, 3, 98252, [], -1, [], 1⟩ := by
  rw [C98_settings atoiC _ _ lineC lineC_good _ (Or.inr ⟨_, rfl⟩)]
  decide +kernel

/-- An engine and a generator for the example: the event is its seed. -/
def engC : Engine Int ℚ := ⟨0, fun s => s, fun s => (0, s)⟩

def worldC : World := ⟨none, fun _ => true, "/data".toList, "/build".toList, fun _ => true⟩

example : main atoiC (fun w => ((atoiC w : Int) : ℚ)) (1 / 100000000) engC (fun _ _ s => (s, s)) worldC 1 ['1']
    (lineC.flatMap Arg.words) = .ok (.histories "histories.cgmf.1".toList none [4, 5, 6]) := by
  refine C98_partial atoiC _ _ engC _ worldC 1 ['1'] lineC lineC_good "98252".toList "0".toList "3".toList
    (by decide) (by decide) (by decide) (by decide) ?_ (-1) ?_ (Or.inr rfl) "/data/".toList (by decide) _ (by decide) rfl _ ?_
  · left; decide +kernel
  · decide +kernel
  · decide +kernel

/-- Without `-n` the same line crashes. -/
example : main atoiC (fun w => ((atoiC w : Int) : ℚ)) (1 / 100000000) engC (fun _ _ s => (s, s)) worldC 0 ['0']
    ([Arg.opt 'i' "98252".toList false, .opt 'e' "0".toList false].flatMap Arg.words) = .ub := by
  exact (C98_refuted atoiC _ _ engC _ worldC ['0'] _ (by decide +kernel) (by decide) .idle).2 (by decide +kernel)
    ⟨"/data/".toList, by decide⟩

end CGMF.Props
