import Verif.Model.CNumber
import Verif.Proofs.Text
import Verif.Props.Cmd
import Verif.Props.Driver

/-!
# C139: numbers on the command line

Readable from the statements with `Model/CNumber.lean` (atoi, atof), `Model/Cmd.lean` (the command line) and
`Model/Text.lean` (how numbers are written; `pyInt`, `pyFloat`: texts that are numbers as a whole).
-/

namespace CGMF.Props

open CGMF CGMF.Text CGMF.CNum CGMF.Cmd CGMF.Driver CGMF.Input CGMF.Spec

/-- A digit is no blank and no sign. -/
theorem digits_all {cs : List Char} {n : Nat} (h : pyNat cs = .ok n) : cs ≠ [] ∧ (∀ c ∈ cs, isDigit c = true) ∧ decVal cs = n := by
  unfold pyNat at h
  split_ifs at h with h1 h2
  exact ⟨h1, by simpa [List.all_eq_true] using h2, Res.ok.inj h⟩

theorem digits_rest {cs rest : List Char} {n : Nat} (h : pyNat cs = .ok n) (hr : ∀ c ∈ rest.head?, isDigit c = false) :
    digits (cs ++ rest) = n := by
  obtain ⟨-, h2, h3⟩ := digits_all h
  unfold digits
  rw [takeWhile_digits h2 hr, h3]

theorem skip_cons {c : Char} {s : List Char} (h : isWs c = false) : skip (c :: s) = c :: s := by
  unfold skip
  rw [List.dropWhile_cons, h]
  rfl

theorem skip_ws (ws s : List Char) (h : ∀ c ∈ ws, isWs c = true) : skip (ws ++ s) = skip s := by
  unfold skip
  induction ws with
  | nil => rfl
  | cons a ws ih =>
      rw [List.cons_append, List.dropWhile_cons, h a (by simp)]
      exact ih fun c hc => h c (by simp [hc])

/-- **C139** (whole numbers): a text that is a whole number is read as this number, whatever blanks are in front and whatever
follows that is no digit. -/
theorem C139_atoi {s : List Char} {i : Int} (h : pyInt s = .ok i) (ws rest : List Char) (hw : ∀ c ∈ ws, isWs c = true)
    (hr : ∀ c ∈ rest.head?, isDigit c = false) : atoi (ws ++ (s ++ rest)) = i := by
  unfold atoi
  rw [skip_ws _ _ hw]
  unfold pyInt at h
  split at h
  · rename_i cs
    rw [List.cons_append, skip_cons (by decide)]
    obtain ⟨n, h1, h2⟩ := Res.bind_eq_ok.1 h
    simp only [Res.pure_eq, Res.ok.injEq] at h2
    simp only
    rw [digits_rest h1 hr, h2]
  · rename_i cs
    rw [List.cons_append, skip_cons (by decide)]
    obtain ⟨n, h1, h2⟩ := Res.bind_eq_ok.1 h
    simp only [Res.pure_eq, Res.ok.injEq] at h2
    simp only
    rw [digits_rest h1 hr, h2]
  · rename_i hm hp
    obtain ⟨n, h1, h2⟩ := Res.bind_eq_ok.1 h
    simp only [Res.pure_eq, Res.ok.injEq] at h2
    obtain ⟨g1, g2, g3⟩ := digits_all h1
    obtain ⟨c, cs, rfl⟩ := List.exists_cons_of_ne_nil g1
    have hc := g2 c (by simp)
    rw [List.cons_append, skip_cons (isWs_digit hc)]
    split
    · rename_i heq; simp only [List.cons.injEq] at heq; exact absurd heq.1 (isDigit_ne hc).1
    · rename_i heq; simp only [List.cons.injEq] at heq; exact absurd heq.1 (isDigit_ne hc).2.1
    · rw [← List.cons_append, digits_rest h1 hr, h2]

theorem takeWhile_stop {p : Char → Bool} (l : List Char) {rest : List Char} (h : ∀ c ∈ rest.head?, p c = false) :
    (l ++ rest).takeWhile p = l.takeWhile p ∧ (l ++ rest).dropWhile p = l.dropWhile p ++ rest := by
  induction l with
  | nil =>
      cases rest with
      | nil => simp
      | cons c r =>
          have := h c (by simp)
          simp [List.takeWhile_cons, List.dropWhile_cons, this]
  | cons a l ih =>
      simp only [List.cons_append, List.takeWhile_cons, List.dropWhile_cons]
      by_cases ha : p a = true
      · simp only [ha, if_true, ih.1, ih.2, and_self]
      · simp [ha]

/-- What may follow a number: no digit, no point, no exponent. -/
def Ends (rest : List Char) : Prop := ∀ c ∈ rest.head?, isDigit c = false ∧ c ≠ '.' ∧ c ≠ 'e' ∧ c ≠ 'E'

theorem exponent_whole {r : List Char} {e : Int} (h : pyExp r = .ok e) {rest : List Char} (hr : Ends rest) :
    exponent (r ++ rest) = e := by
  have hd : ∀ {t : List Char} {n : Nat}, pyNat t = .ok n → digits (t ++ rest) = n := fun {t n} ht =>
    digits_rest ht fun c hc => (hr c hc).1
  have hcase : ∀ (c : Char) (cs : List Char), c = 'e' ∨ c = 'E' → pyInt cs = .ok e → exponent (c :: (cs ++ rest)) = e := by
    intro c cs hc h
    unfold pyInt at h
    split at h
    · obtain ⟨n, h1, h2⟩ := Res.bind_eq_ok.1 h
      simp only [Res.pure_eq, Res.ok.injEq] at h2
      rcases hc with rfl | rfl <;> simp only [exponent, List.cons_append] <;> rw [hd h1, h2]
    · obtain ⟨n, h1, h2⟩ := Res.bind_eq_ok.1 h
      simp only [Res.pure_eq, Res.ok.injEq] at h2
      rcases hc with rfl | rfl <;> simp only [exponent, List.cons_append] <;> rw [hd h1, h2]
    · obtain ⟨n, h1, h2⟩ := Res.bind_eq_ok.1 h
      simp only [Res.pure_eq, Res.ok.injEq] at h2
      obtain ⟨g1, g2, -⟩ := digits_all h1
      obtain ⟨a, t, rfl⟩ := List.exists_cons_of_ne_nil g1
      have ha := isDigit_ne (g2 a (by simp))
      have : exponent (c :: (a :: t ++ rest)) = (digits (a :: t ++ rest) : Int) := by
        rw [List.cons_append]
        rcases hc with rfl | rfl <;> unfold exponent <;> split <;> rename_i heq <;>
          simp only [List.cons.injEq, true_and, Char.reduceEq, false_and] at heq <;>
          first
          | exact absurd heq.1 ha.1
          | exact absurd heq.1 ha.2.1
          | rw [heq]
          | (rename_i h3 _ _; exact absurd rfl (h3 _))
          | exact absurd rfl (heq _)
      rw [this, hd h1, h2]
  unfold pyExp at h
  split at h
  · obtain rfl := Res.ok.inj h
    rw [List.nil_append]
    cases rest with
    | nil => rfl
    | cons c r =>
        obtain ⟨-, -, h1, h2⟩ := hr c (by simp)
        unfold exponent
        split <;> rename_i heq <;> first | rfl | (simp only [List.cons.injEq] at heq; first | exact absurd heq.1 h1 | exact absurd heq.1 h2)
  · exact hcase _ _ (Or.inl rfl) h
  · exact hcase _ _ (Or.inr rfl) h
  · cases h

theorem fracSplit_stop (d : List Char) {rest : List Char} (hr : Ends rest) :
    fracSplit (d ++ rest) = ((fracSplit d).1, (fracSplit d).2 ++ rest) := by
  cases d with
  | nil =>
      cases rest with
      | nil => rfl
      | cons c r =>
          have := (hr c (by simp)).2.1
          rw [List.nil_append]
          unfold fracSplit
          split
          · rename_i heq; simp only [List.cons.injEq] at heq; exact absurd heq.1 this
          · rfl
  | cons c d =>
      by_cases hc : c = '.'
      · subst hc
        have := takeWhile_stop (p := isDigit) d (rest := rest) fun c hc => (hr c hc).1
        simp only [List.cons_append, fracSplit, this.1, this.2]
      · rw [List.cons_append]
        unfold fracSplit
        split
        · rename_i heq; simp only [List.cons.injEq] at heq; exact absurd heq.1 hc
        · split
          · rename_i heq; simp only [List.cons.injEq] at heq; exact absurd heq.1 hc
          · rfl

/-- **C139** (decimal numbers): a text that is a number as a whole, as Python's `float` reads it, is read as this number,
whatever blanks are in front and whatever follows that cannot be part of a number. -/
theorem C139_atof {s : List Char} {x : ℚ} (h : pyFloat s = .ok x) (ws rest : List Char) (hw : ∀ c ∈ ws, isWs c = true)
    (hr : Ends rest) : atof (ws ++ (s ++ rest)) = x := by
  have key : ∀ {t : List Char} {y : ℚ}, pyUFloat t = .ok y → unsigned (t ++ rest) = y ∧ t ≠ [] ∧
      (t.head?.map isWs).getD false = false ∧ t.head? ≠ some '-' ∧ t.head? ≠ some '+' := by
    intro t y ht
    unfold pyUFloat at ht
    unfold unsigned
    obtain ⟨h1, h2⟩ := takeWhile_stop (p := isDigit) t (rest := rest) fun c hc => (hr c hc).1
    rw [h1, h2, fracSplit_stop _ hr]
    simp only at ht ⊢
    split_ifs at ht ⊢ with h1
    obtain ⟨e, h2, h3⟩ := Res.bind_eq_ok.1 ht
    simp only [Res.pure_eq, Res.ok.injEq] at h3
    rw [exponent_whole h2 hr]
    refine ⟨h3, ?_⟩
    cases t with
    | nil => exact absurd rfl h1
    | cons c t =>
        refine ⟨List.cons_ne_nil _ _, ?_⟩
        by_cases hc : isDigit c = true
        · have := isDigit_ne hc
          simp [isWs_digit hc, this.1, this.2.1]
        · have hc' : isDigit c = false := by simpa using hc
          rw [List.takeWhile_cons, List.dropWhile_cons, hc'] at h1
          simp only [Bool.false_eq_true, if_false, List.nil_append] at h1
          have : c = '.' := by
            unfold fracSplit at h1
            split at h1
            · rename_i heq; simp only [List.cons.injEq] at heq; exact heq.1
            · simp at h1
          subst this
          simp [isWs]
  unfold atof
  rw [skip_ws _ _ hw]
  unfold pyFloat at h
  split at h
  · rw [List.cons_append, skip_cons (by decide)]
    obtain ⟨y, h1, h2⟩ := Res.bind_eq_ok.1 h
    simp only [Res.pure_eq, Res.ok.injEq] at h2
    simp only
    rw [(key h1).1, h2]
  · rw [List.cons_append, skip_cons (by decide)]
    exact (key h).1
  · obtain ⟨k1, k2, k3, k4, k5⟩ := key h
    obtain ⟨c, s, rfl⟩ := List.exists_cons_of_ne_nil k2
    rw [List.cons_append, skip_cons (by simpa using k3)]
    split
    · rename_i heq; simp only [List.cons.injEq] at heq; rw [heq.1] at k4; simp at k4
    · rename_i heq; simp only [List.cons.injEq] at heq; rw [heq.1] at k5; simp at k5
    · exact k1

/-- **C139** (command line).  Options given as numbers, in any order and among operands, set exactly these numbers. -/
theorem C139_options (tw : ℚ) (as : List Arg) (hg : ∀ a ∈ as, a.Good) (vi vn vs ve vt : List Char) (zaid n s : Int) (e t : ℚ)
    (hi : lastArg 'i' as = some vi) (hn : lastArg 'n' as = some vn) (hs : lastArg 's' as = some vs)
    (he : lastArg 'e' as = some ve) (ht : lastArg 't' as = some vt)
    (ri : pyInt vi = .ok zaid) (rn : pyInt vn = .ok n) (rs : pyInt vs = .ok s) (re : pyFloat ve = .ok e)
    (rt : pyFloat vt = .ok t) :
    options atoi atof tw (as.flatMap Arg.words) =
      { einc := e, nevents := n, zaid := zaid, file := (lastArg 'f' as).getD [], window := t,
        path := (lastArg 'd' as).getD [], start := s } := by
  have ho := C98_settings atoi atof tw as hg [] (Or.inl rfl)
  have hI : ∀ {w : List Char} {i : Int}, pyInt w = .ok i → atoi w = i := fun {w i} h => by
    have := C139_atoi h [] [] (by simp) (by simp)
    simpa using this
  have hF : ∀ {w : List Char} {x : ℚ}, pyFloat w = .ok x → atof w = x := fun {w x} h => by
    have := C139_atof h [] [] (by simp) (by simp [Ends])
    simpa using this
  rw [List.append_nil] at ho
  rw [ho, hi, hn, hs, he, ht]
  simp only [Option.map_some, Option.getD_some]
  rw [hI ri, hI rn, hI rs, hF re, hF rt]

/-- A number followed by something else is no number. -/
theorem pyInt_refuses {s : List Char} {i : Int} (h : pyInt s = .ok i) {c : Char} (hc : isDigit c = false) (rest : List Char)
    (j : Int) : pyInt (s ++ c :: rest) ≠ .ok j := by
  have hn : ∀ (t : List Char) (k : Nat), pyNat (t ++ c :: rest) ≠ .ok k := fun t k hk => by
    have := (digits_all hk).2.1 c (by simp)
    rw [hc] at this
    cases this
  have hs : s ≠ [] := by
    rintro rfl
    revert h
    simp [pyInt, pyNat, bind, Res.bind]
  obtain ⟨a, s, rfl⟩ := List.exists_cons_of_ne_nil hs
  intro hj
  unfold pyInt at hj
  split at hj
  · rename_i heq
    simp only [List.cons_append, List.cons.injEq] at heq
    obtain ⟨n, h1, -⟩ := Res.bind_eq_ok.1 hj
    rw [← heq.2] at h1
    exact hn _ _ h1
  · rename_i heq
    simp only [List.cons_append, List.cons.injEq] at heq
    obtain ⟨n, h1, -⟩ := Res.bind_eq_ok.1 hj
    rw [← heq.2] at h1
    exact hn _ _ h1
  · obtain ⟨n, h1, -⟩ := Res.bind_eq_ok.1 hj
    exact hn _ _ h1

/-- **C139** (what fails).  A word that is no number is not refused: if the argument of `-n` only begins with the
number `m`, each rank writes `m` events, whatever the rest of the word says. -/
theorem C139_refuted {S Ev : Type} (tw : ℚ) (E : Engine S ℚ) (gen : Reaction ℚ → ℚ → S → Ev × S) (w : World) (ip : Int)
    (rank : List Char) (as : List Arg) (hg : ∀ a ∈ as, a.Good) (vi ve vn : List Char) (c : Char) (rest : List Char) (m : Int)
    (hi : lastArg 'i' as = some vi) (he : lastArg 'e' as = some ve) (hn : lastArg 'n' as = some (vn ++ c :: rest))
    (rn : pyInt vn = .ok m) (hc' : isDigit c = false) (hpos : 0 < m) (hs : Supported (atoi vi) (atof ve))
    (window : ℚ) (hw : window = ((lastArg 't' as).map atof).getD tw) (hw' : 0 ≤ window ∨ window = -1)
    (d : List Char) (hd : setdatapath w.isDir w.inst w.build
      (if (lastArg 'd' as).getD [] = [] then w.cgmfdata.getD [] else (lastArg 'd' as).getD []) = .ok d)
    (hc : ∀ name, w.canWrite name = true) :
    (∀ j, pyInt (vn ++ c :: rest) ≠ .ok j) ∧
    ∃ name evs, evs.length = m.toNat ∧ main atoi atof tw E gen w ip rank (as.flatMap Arg.words) =
      .ok (.histories name (if ip = 0 then some (atoi vi, atof ve, window) else none) evs) := by
  have hm : atoi (vn ++ c :: rest) = m := by
    have := C139_atoi rn [] (c :: rest) (by simp) (by simpa using hc')
    simpa using this
  refine ⟨pyInt_refuses rn hc' rest, _, _, ?_, C98_partial atoi atof tw E gen w ip rank as hg vi ve _ hi he hn (by rw [hm]; exact hpos)
    hs window hw hw' d hd _ rfl (hc _) _ (C08_event_from_seed ..)⟩
  rw [hm, List.length_map, List.length_range]

/-! ## Cases -/

example : atoi "  92235 ".toList = 92235 ∧ atoi "-1000".toList = -1000 ∧ atof "2.53e-8".toList = 253 / 10000000000 ∧
    atof " 1e-8".toList = 1 / 100000000 ∧ atof "1E-8".toList = 1 / 100000000 ∧ atof "-1".toList = -1 ∧ atof ".5".toList = 1 / 2 := by decide +kernel

/-- Not refused, and not what was meant. -/
example : atoi "1e6".toList = 1 ∧ atoi "10,000".toList = 10 ∧ atoi "U235".toList = 0 ∧ atof "1,5".toList = 1 ∧
    atof "thermal".toList = 0 := by decide +kernel

def lineN : List Arg := [.opt 'i' "98252".toList false, .opt 'e' "0.0".toList false, .opt 'n' "1e6".toList true,
  .opt 's' "7".toList true, .opt 't' "1.0e-8".toList false]

theorem lineN_good : ∀ a ∈ lineN, a.Good := by simp [lineN, Arg.Good, letters]

example : options atoi atof 0 (([Arg.opt 'i' "98252".toList false, .opt 'e' "0.0".toList false, .opt 'n' "100".toList true,
    .opt 's' "7".toList true, .opt 't' "1.0e-8".toList false]).flatMap Arg.words) =
    ⟨0, 100, 98252, [], 1 / 100000000, [], 7⟩ :=
  C139_options 0 _ (by simp [Arg.Good, letters]) "98252".toList "100".toList "7".toList "0.0".toList "1.0e-8".toList _ _ _ _ _
    (by decide) (by decide) (by decide) (by decide) (by decide) (by decide +kernel) (by decide +kernel) (by decide +kernel)
    (by decide +kernel) (by decide +kernel)

/-- A million events asked for as `-n1e6`: one event is written. -/
example : ∃ name evs, evs.length = 1 ∧ main atoi atof (1 / 100000000) engC (fun _ _ s => (s, s)) worldC 0 ['0']
    (lineN.flatMap Arg.words) = .ok (.histories name (some (98252, 0, 1 / 100000000)) evs) := by
  have h := (C139_refuted (1 / 100000000) engC (fun _ _ s => (s, s)) worldC 0 ['0'] lineN lineN_good "98252".toList "0.0".toList
    "1".toList 'e' "6".toList 1 (by decide) (by decide) (by decide) (by decide +kernel) (by decide) (by decide)
    (Or.inl (by decide +kernel)) _ rfl (Or.inl (by decide +kernel)) "/data/".toList (by decide) (fun _ => rfl)).2
  have e1 : atoi "98252".toList = 98252 := by decide +kernel
  have e2 : atof "0.0".toList = 0 := by decide +kernel
  have e3 : ((lastArg 't' lineN).map atof).getD (1 / 100000000) = 1 / 100000000 := by decide +kernel
  rw [e1, e2, e3] at h
  simpa using h

end CGMF.Props
