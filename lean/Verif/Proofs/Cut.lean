import Verif.Model.Load
import Verif.Spec.Cut
import Verif.Proofs.History

/-!
# Reading a file that was cut
-/

namespace CGMF.History

open CGMF CGMF.Text CGMF.Printer CGMF.Parser CGMF.Spec

/-! ## Lines -/

/-- `T` are the lines of a file that should have had the lines `L` (without newline). -/
inductive Cut : List (List Char) → List (List Char) → Prop
  | nil (L) : Cut L []
  | part {l p L} : p ≠ [] → p <+: l → Cut (l :: L) [p]
  | cons {l L T} : Cut L T → Cut (l :: L) ((l ++ ['\n']) :: T)

theorem linesAux_plain (l cur : List Char) (hl : '\n' ∉ l) :
    linesAux l cur = if cur ++ l = [] then [] else [cur ++ l] := by
  induction l generalizing cur with
  | nil => simp [linesAux]
  | cons c l ih =>
    have hc : c ≠ '\n' := fun h => hl (by simp [h])
    rw [linesAux, if_neg hc, ih _ (fun h => hl (by simp [h]))]
    simp

theorem cut_take (L : List (List Char)) (h : ∀ l ∈ L, '\n' ∉ l) (k : Nat) :
    Cut L (fileLines ((L.flatMap (fun l => l ++ ['\n'])).take k)) := by
  induction L generalizing k with
  | nil => simpa [fileLines, linesAux] using Cut.nil []
  | cons l L ih =>
    have hl := h l (by simp)
    rw [List.flatMap_cons]
    by_cases hk : k ≤ l.length
    · have h1 : ((l ++ ['\n']) ++ L.flatMap (fun l => l ++ ['\n'])).take k = l.take k := by
        rw [List.append_assoc, List.take_append_of_le_length hk]
      have hn : '\n' ∉ l.take k := fun hc => hl (List.mem_of_mem_take hc)
      rw [h1, fileLines, linesAux_plain _ _ hn, List.nil_append]
      split_ifs with h0
      · exact .nil _
      · exact .part h0 (List.take_prefix _ _)
    · obtain ⟨j, rfl⟩ : ∃ j, k = (l ++ ['\n']).length + j := ⟨k - (l.length + 1), by simp; omega⟩
      rw [List.take_length_add_append, List.append_assoc, List.singleton_append, fileLines, linesAux_line _ _ _ hl,
        List.nil_append]
      exact .cons (ih (fun x hx => h x (by simp [hx])) j)

/-! ## Tokens -/

/-- `xs` are the tokens of a line that should have had the tokens `ts`. -/
inductive TokCut : List (List Char) → List (List Char) → Prop
  | nil (ts) : TokCut [] ts
  | part {q t ts} : q <+: t → TokCut [q] (t :: ts)
  | cons {t xs ts} : TokCut xs ts → TokCut (t :: xs) (t :: ts)

theorem splitAux_head (l cur : List Char) (hc : cur ≠ []) :
    ∃ t ts, pySplitAux l cur = t :: ts ∧ cur <+: t := by
  induction l generalizing cur with
  | nil => exact ⟨cur, [], by simp [pySplitAux, hc], List.prefix_refl _⟩
  | cons c l ih =>
    rw [pySplitAux]
    split_ifs with hw
    · exact ⟨cur, _, rfl, List.prefix_refl _⟩
    · obtain ⟨t, ts, h1, h2⟩ := ih (cur ++ [c]) (by simp)
      exact ⟨t, ts, h1, (List.prefix_append _ _).trans h2⟩

theorem splitAux_cut (p l cur : List Char) (h : p <+: l) : TokCut (pySplitAux p cur) (pySplitAux l cur) := by
  induction p generalizing l cur with
  | nil =>
    rw [pySplitAux]
    split_ifs with hc
    · exact .nil _
    · obtain ⟨t, ts, h1, h2⟩ := splitAux_head l cur hc
      rw [h1]; exact .part h2
  | cons c p ih =>
    obtain ⟨r, rfl⟩ := h
    rw [List.cons_append, pySplitAux, pySplitAux]
    have hp : p <+: p ++ r := List.prefix_append _ _
    split_ifs with hw hc
    · exact ih _ _ hp
    · exact .cons (ih _ _ hp)
    · exact ih _ _ hp

theorem tokCut_cases {xs ts : List (List Char)} (h : TokCut xs ts) :
    xs.length < ts.length ∨ (∀ j, j + 1 < ts.length → xs[j]? = ts[j]?) := by
  induction h with
  | nil ts => cases ts <;> simp
  | @part q t ts hq =>
    cases ts with
    | nil => right; intro j hj; simp at hj
    | cons a b => left; simp
  | @cons t xs ts h ih =>
    rcases ih with ih | ih
    · left; simpa using ih
    · right
      intro j hj
      cases j with
      | zero => rfl
      | succ j => simpa using ih j (by simpa using hj)

/-- The tokens of the beginning of a line. -/
theorem split_cut {p l : List Char} {ts : List (List Char)} (h : p <+: l) (hs : pySplit (l ++ ['\n']) = ts) :
    (pySplit p).length < ts.length ∨ (∀ j, j + 1 < ts.length → (pySplit p)[j]? = ts[j]?) := by
  rw [← hs]
  exact tokCut_cases (splitAux_cut p (l ++ ['\n']) [] (h.trans (List.prefix_append _ _)))

/-! ## Reading never is undefined -/

theorem pyNat_cases (t : List Char) : pyNat t = .exit ∨ ∃ x, pyNat t = .ok x := by
  unfold pyNat; split_ifs <;> simp

theorem pyInt_cases (t : List Char) : pyInt t = .exit ∨ ∃ x, pyInt t = .ok x := by
  unfold pyInt
  split
  · rename_i cs
    rcases pyNat_cases cs with h | ⟨x, h⟩ <;> simp [h]
  · rename_i cs
    rcases pyNat_cases cs with h | ⟨x, h⟩ <;> simp [h]
  · rcases pyNat_cases t with h | ⟨x, h⟩ <;> simp [h]

theorem pyExp_cases (t : List Char) : pyExp t = .exit ∨ ∃ x, pyExp t = .ok x := by
  unfold pyExp
  split
  · simp
  · exact pyInt_cases _
  · exact pyInt_cases _
  · simp

theorem pyUFloat_cases (t : List Char) : pyUFloat t = .exit ∨ ∃ x, pyUFloat t = .ok x := by
  unfold pyUFloat
  simp only
  split_ifs
  · simp
  · rcases pyExp_cases (fracSplit (t.dropWhile isDigit)).2 with h | ⟨x, h⟩ <;> simp [h]

theorem pyFloat_cases (t : List Char) : pyFloat t = .exit ∨ ∃ x, pyFloat t = .ok x := by
  unfold pyFloat
  split
  · rename_i cs
    rcases pyUFloat_cases cs with h | ⟨x, h⟩ <;> simp [h]
  · exact pyUFloat_cases _
  · exact pyUFloat_cases _

theorem intAt_cases (d : List (List Char)) (j : Nat) : intAt d j = .exit ∨ ∃ x, intAt d j = .ok x := by
  unfold intAt tok
  split
  · rename_i t _
    simpa using pyInt_cases t
  · simp

theorem floatAt_cases (d : List (List Char)) (j : Nat) : floatAt d j = .exit ∨ ∃ x, floatAt d j = .ok x := by
  unfold floatAt tok
  split
  · rename_i t _
    simpa using pyFloat_cases t
  · simp

theorem floatAt_none {d : List (List Char)} {j : Nat} (h : d.length ≤ j) : floatAt d j = .exit := by
  simp [floatAt, tok, List.getElem?_eq_none h]

theorem floatAt_congr {d d' : List (List Char)} {j : Nat} (h : d[j]? = d'[j]?) : floatAt d j = floatAt d' j := by
  simp [floatAt, tok, h]

/-- Exit or success of a sequence. -/
theorem bind_cases {α β : Type} {x : Res α} {f : α → Res β} {Q : β → Prop} (hx : x = .exit ∨ ∃ a, x = .ok a)
    (hf : ∀ a, x = .ok a → (f a = .exit ∨ ∃ b, f a = .ok b ∧ Q b)) :
    (x >>= f) = .exit ∨ ∃ b, (x >>= f) = .ok b ∧ Q b := by
  rcases hx with h | ⟨a, h⟩
  · left; rw [h]; rfl
  · rw [h]; exact hf a h

theorem bind_exit_of {α β : Type} {x : Res α} {f : α → Res β} (hx : x = .exit ∨ ∃ a, x = .ok a)
    (hf : ∀ a, x = .ok a → f a = .exit) : (x >>= f) = .exit := by
  rcases hx with h | ⟨a, h⟩
  · rw [h]; rfl
  · rw [h]; exact hf a h

theorem vecAt_cases (d : List (List Char)) (k i : Nat) : vecAt d k i = .exit ∨ ∃ x, vecAt d k i = .ok x := by
  unfold vecAt
  rcases floatAt_cases d (0 + i * k) with h | ⟨u, h⟩
  · left; rw [h]; rfl
  rw [h, Res.bind_ok]
  rcases floatAt_cases d (1 + i * k) with h | ⟨v, h⟩
  · left; rw [h]; rfl
  rw [h, Res.bind_ok]
  rcases floatAt_cases d (2 + i * k) with h | ⟨w, h⟩
  · left; rw [h]; rfl
  rw [h, Res.bind_ok]
  rcases floatAt_cases d (3 + i * k) with h | ⟨e, h⟩
  · left; rw [h]; rfl
  rw [h, Res.bind_ok]
  right; exact ⟨_, rfl⟩

theorem collect_cases {α : Type} {f : Nat → Res α} (hf : ∀ i, f i = .exit ∨ ∃ x, f i = .ok x) (n i : Nat) :
    collect f n i = .exit ∨ ∃ x, collect f n i = .ok x := by
  induction n generalizing i with
  | zero => right; exact ⟨[], rfl⟩
  | succ n ih =>
    rw [collect]
    rcases hf i with h | ⟨x, h⟩
    · left; rw [h]; rfl
    · rw [h, Res.bind_ok]
      rcases ih (i + 1) with h | ⟨xs, h⟩
      · left; rw [h]; rfl
      · right; rw [h]; exact ⟨_, rfl⟩

theorem collect_exit {α : Type} {f : Nat → Res α} (hf : ∀ i, f i = .exit ∨ ∃ x, f i = .ok x) (n i j : Nat) (hj : j < n)
    (he : f (i + j) = .exit) : collect f n i = .exit := by
  induction n generalizing i j with
  | zero => omega
  | succ n ih =>
    rw [collect]
    cases j with
    | zero => rw [Nat.add_zero] at he; rw [he]; rfl
    | succ j =>
      apply bind_exit_of (hf i)
      intro x _
      rw [ih (i + 1) j (by omega) (by rw [← he]; congr 1; omega)]; rfl

theorem vecAt_exit {d : List (List Char)} {k i : Nat} (h : d.length ≤ 3 + i * k) : vecAt d k i = .exit := by
  unfold vecAt
  refine bind_exit_of (floatAt_cases _ _) fun u _ => ?_
  refine bind_exit_of (floatAt_cases _ _) fun v _ => ?_
  refine bind_exit_of (floatAt_cases _ _) fun w _ => ?_
  rw [floatAt_none h]; rfl

theorem vecAt_congr {d d' : List (List Char)} {k i : Nat} (h : ∀ j, j ≤ 3 → d[j + i * k]? = d'[j + i * k]?) :
    vecAt d k i = vecAt d' k i := by
  unfold vecAt
  rw [floatAt_congr (h 0 (by omega)), floatAt_congr (h 1 (by omega)), floatAt_congr (h 2 (by omega)),
    floatAt_congr (h 3 (by omega))]

theorem vecAt_last {d d' : List (List Char)} {k i : Nat} (h : ∀ j, j ≤ 2 → d[j + i * k]? = d'[j + i * k]?) {v v' : Vec4}
    (hv : vecAt d' k i = .ok v) (hv' : vecAt d k i = .ok v') : v' = { v with e := v'.e } := by
  unfold vecAt at hv hv'
  rw [floatAt_congr (h 0 (by omega)), floatAt_congr (h 1 (by omega)), floatAt_congr (h 2 (by omega))] at hv'
  obtain ⟨u, hu, hv⟩ := Res.bind_eq_ok.mp hv
  rw [hu, Res.bind_ok] at hv'
  obtain ⟨v1, h1, hv⟩ := Res.bind_eq_ok.mp hv
  rw [h1, Res.bind_ok] at hv'
  obtain ⟨w, h2, hv⟩ := Res.bind_eq_ok.mp hv
  rw [h2, Res.bind_ok] at hv'
  obtain ⟨e, h3, hv⟩ := Res.bind_eq_ok.mp hv
  obtain ⟨e', h4, hv'⟩ := Res.bind_eq_ok.mp hv'
  simp only [Res.pure_eq, Res.ok.injEq] at hv hv'
  subst hv; subst hv'; rfl

/-- Two collections that differ only in the last entry. -/
theorem collect_last {α : Type} {f f' : Nat → Res α} {n i : Nat} (h : ∀ j, j + 1 < n → f (i + j) = f' (i + j))
    {xs xs' : List α} (hx : collect f' n i = .ok xs) (hx' : collect f n i = .ok xs') :
    (n = 0 ∧ xs = [] ∧ xs' = []) ∨
      ∃ pre a a', xs = pre ++ [a] ∧ xs' = pre ++ [a'] ∧ f' (i + (n - 1)) = .ok a ∧ f (i + (n - 1)) = .ok a' := by
  induction n generalizing i xs xs' with
  | zero => left; simp only [collect, Res.ok.injEq] at hx hx'; exact ⟨rfl, hx.symm, hx'.symm⟩
  | succ n ih =>
    right
    rw [collect] at hx hx'
    obtain ⟨a, ha, hx⟩ := Res.bind_eq_ok.mp hx
    obtain ⟨a', ha', hx'⟩ := Res.bind_eq_ok.mp hx'
    obtain ⟨as, has, hx⟩ := Res.bind_eq_ok.mp hx
    obtain ⟨as', has', hx'⟩ := Res.bind_eq_ok.mp hx'
    simp only [Res.pure_eq, Res.ok.injEq] at hx hx'
    subst hx; subst hx'
    rcases ih (fun j hj => by
        have := h (j + 1) (by omega)
        rwa [show i + (j + 1) = i + 1 + j by omega] at this) has has' with ⟨rfl, rfl, rfl⟩ | ⟨pre, b, b', rfl, rfl, h1, h2⟩
    · exact ⟨[], a, a', rfl, rfl, by simpa using ha, by simpa using ha'⟩
    · cases n with
      | zero =>
        simp only [collect, Res.ok.injEq] at has
        exact absurd has (by simp)
      | succ n =>
        have hh := h 0 (by omega)
        rw [Nat.add_zero, ha, ha', Res.ok.injEq] at hh
        subst hh
        refine ⟨a' :: pre, b, b', rfl, rfl, ?_, ?_⟩
        · rw [← h1]; congr 1; omega
        · rw [← h2]; congr 1; omega

theorem lastEnergy_snoc (pre : List Vec4) (v : Vec4) (y : ℚ) : lastEnergy y (pre ++ [v]) = pre ++ [{ v with e := y }] := by
  induction pre with
  | nil => rfl
  | cons a pre ih =>
    cases pre with
    | nil => rfl
    | cons b pre => simp only [List.cons_append, lastEnergy] at ih ⊢; rw [ih]

theorem lastNumber_snoc (pre : List ℚ) (v y : ℚ) : lastNumber y (pre ++ [v]) = pre ++ [y] := by
  induction pre with
  | nil => rfl
  | cons a pre ih =>
    cases pre with
    | nil => rfl
    | cons b pre => simp only [List.cons_append, lastNumber] at ih ⊢; rw [ih]

theorem toks_length (tk : Int → List (List Char)) (k : Nat) (hk : ∀ i, (tk i).length = k) (n : Nat) (lo : Int) :
    (toks tk lo n).length = n * k := by
  induction n generalizing lo with
  | zero => simp [toks]
  | succ n ih => rw [toks, List.length_append, hk, ih]; ring

/-- A cut line of particles: refused, or right but for the last energy. -/
theorem collect_vec_cut (g : Getters) (n : Nat) (lo : Int) (p : List Char) (hp : p <+: spaced (toks (vtok g) lo n)) :
    collect (vecAt (pySplit p) 4) n 0 = .exit ∨
      ∃ y, collect (vecAt (pySplit p) 4) n 0 = .ok (lastEnergy y (mapFrom (rvec g) lo n)) := by
  have hlen := toks_length (vtok g) 4 (fun _ => rfl) n lo
  rcases split_cut hp (split_post _ (isTok_toks _ (isTok_vtok g) n lo)) with h | h
  · left
    rw [hlen] at h
    obtain ⟨m, rfl⟩ : ∃ m, n = m + 1 := ⟨n - 1, by omega⟩
    exact collect_exit (vecAt_cases _ _) (m + 1) 0 m (by omega) (vecAt_exit (by omega))
  · rcases collect_cases (vecAt_cases (pySplit p) 4) n 0 with h' | ⟨xs, h'⟩
    · exact Or.inl h'
    · right
      rw [hlen] at h
      have hc := collect_vec g n lo
      rcases collect_last (f := vecAt (pySplit p) 4) (f' := vecAt (toks (vtok g) lo n) 4) (fun j hj => vecAt_congr
          (fun q hq => h _ (by omega))) hc h' with ⟨rfl, -, rfl⟩ | ⟨pre, a, a', h1, rfl, h2, h3⟩
      · exact ⟨0, h'⟩
      · refine ⟨a'.e, ?_⟩
        rw [h', h1, lastEnergy_snoc]
        have hn : n ≠ 0 := by
          rintro rfl
          simp [mapFrom] at h1
        rw [vecAt_last (fun q hq => h _ (by omega)) h2 h3]

/-- A cut line of photons with ages. -/
theorem collect_age_cut (g : Getters) (age : Int → ℚ) (n : Nat) (lo : Int) (p : List Char)
    (hp : p <+: spaced (toks (ptok g age) lo n)) :
    collect (vecAt (pySplit p) 5) n 0 = .exit ∨ collect (fun i => floatAt (pySplit p) (4 + i * 5)) n 0 = .exit ∨
      ∃ y, collect (vecAt (pySplit p) 5) n 0 = .ok (mapFrom (rvec g) lo n) ∧
        collect (fun i => floatAt (pySplit p) (4 + i * 5)) n 0
          = .ok (lastNumber y (mapFrom (fun i => gVal (age i)) lo n)) := by
  have hlen := toks_length (ptok g age) 5 (fun _ => rfl) n lo
  rcases split_cut hp (split_post _ (isTok_toks _ (isTok_ptok g age) n lo)) with h | h
  · right; left
    rw [hlen] at h
    obtain ⟨m, rfl⟩ : ∃ m, n = m + 1 := ⟨n - 1, by omega⟩
    exact collect_exit (fun i => floatAt_cases _ _) (m + 1) 0 m (by omega) (floatAt_none (by omega))
  · rcases collect_cases (fun i => floatAt_cases (pySplit p) (4 + i * 5)) n 0 with h' | ⟨xs, h'⟩
    · exact Or.inr (Or.inl h')
    · right; right
      rw [hlen] at h
      have hv : collect (vecAt (pySplit p) 5) n 0 = .ok (mapFrom (rvec g) lo n) := by
        rw [← collect_vec5 g age n lo]
        have gen : ∀ m i, i + m ≤ n → collect (vecAt (pySplit p) 5) m i
            = collect (vecAt (toks (ptok g age) lo n) 5) m i := by
          intro m
          induction m with
          | zero => intro i _; rfl
          | succ m ih =>
            intro i hi
            rw [collect, collect, ih (i + 1) (by omega), vecAt_congr (fun q hq => h _ (by omega))]
        exact gen n 0 (by omega)
      rcases collect_last (f := fun i => floatAt (pySplit p) (4 + i * 5))
          (f' := fun i => floatAt (toks (ptok g age) lo n) (4 + i * 5)) (fun j hj => floatAt_congr (h _ (by omega)))
          (collect_age g age n lo) h' with ⟨rfl, -, rfl⟩ | ⟨pre, a, a', h1, rfl, h2, h3⟩
      · exact ⟨0, hv, h'⟩
      · refine ⟨a', hv, ?_⟩
        rw [h', h1, lastNumber_snoc]

/-! ## One fragment -/

theorem readVecs_nil (n : Nat) : readVecs n [] = if 0 < n then .exit else .ok ([], []) := by
  unfold readVecs
  by_cases h : 0 < n
  · have h' : (0 : Int) < n := by exact_mod_cast h
    rw [if_pos h', if_pos h]
    simp only [readline, Int.toNat_natCast]
    rw [collect_exit (vecAt_cases _ _) n 0 0 h (vecAt_exit (by simp [pySplit_nil]))]; rfl
  · have h' : ¬ (0 : Int) < n := by omega
    rw [if_neg h', if_neg h]

theorem readVecs_cut (g : Getters) (n : Nat) (lo : Int) (rest T : List (List Char))
    (h : Cut (pLines (vtok g) lo n ++ rest) T) :
    readVecs n T = .exit ∨
      (∃ T', readVecs n T = .ok (mapFrom (rvec g) lo n, T') ∧ Cut rest T' ∧ T'.length ≤ T.length) ∨
      (0 < n ∧ ∃ y, readVecs n T = .ok (lastEnergy y (mapFrom (rvec g) lo n), [])) := by
  by_cases hn : 0 < n
  · have h' : (0 : Int) < n := by exact_mod_cast hn
    rw [pLines, if_pos hn, List.singleton_append] at h
    cases h with
    | nil => left; rw [readVecs_nil, if_pos hn]
    | part h1 h2 =>
      rename_i p
      rcases collect_vec_cut g n lo p h2 with h3 | ⟨y, h3⟩
      · left
        simp only [readVecs, h', if_true, readline, Int.toNat_natCast, h3]; rfl
      · right; right
        refine ⟨hn, y, ?_⟩
        simp only [readVecs, h', if_true, readline, Int.toNat_natCast, h3]; rfl
    | cons h1 =>
      rename_i T
      right; left
      refine ⟨T, ?_, h1, by simp⟩
      have := readVecs_lines g n lo T
      rw [pLines, if_pos hn] at this
      exact this
  · have : n = 0 := by omega
    subst this
    right; left
    refine ⟨T, by simp [readVecs, mapFrom], by simpa [pLines] using h, le_rfl⟩

/-- Photons of a cut line. -/
def phLast (w y : ℚ) (x : List Vec4 × List ℚ) : List Vec4 × List ℚ :=
  if w < 0 then (x.1, lastNumber y x.2) else (lastEnergy y x.1, x.2)

theorem readPhotons_nil (time : ℚ) (n : Nat) : readPhotons time n [] = if 0 < n then .exit else .ok (([], []), []) := by
  unfold readPhotons
  by_cases h : 0 < n
  · have h' : (0 : Int) < n := by exact_mod_cast h
    rw [if_pos h]
    split_ifs
    · simp only [readPhotons5, readline, Int.toNat_natCast]
      rw [collect_exit (vecAt_cases _ _) n 0 0 h (vecAt_exit (by simp [pySplit_nil]))]; rfl
    · simp only [readPhotons4]
      rw [readVecs_nil, if_pos h]; rfl
  · have h0 : n = 0 := by omega
    subst h0
    simp [readPhotons4, readVecs]

theorem readPhotons_cut (w time : ℚ) (ht : time < 0 ↔ w < 0) (g : Getters) (age : Int → ℚ) (n : Nat) (lo : Int)
    (rest T : List (List Char)) (h : Cut (pLines (phTok w g age) lo n ++ rest) T) :
    readPhotons time n T = .exit ∨
      (∃ T', readPhotons time n T = .ok ((mapFrom (rvec g) lo n, rAges w age lo n), T') ∧ Cut rest T' ∧
        T'.length ≤ T.length) ∨
      (0 < n ∧ ∃ y, readPhotons time n T = .ok (phLast w y (mapFrom (rvec g) lo n, rAges w age lo n), [])) := by
  by_cases hn : 0 < n
  · have h' : (0 : Int) < n := by exact_mod_cast hn
    by_cases hw : w < 0
    · have htk : phTok w g age = ptok g age := by funext i; simp [phTok, hw]
      have hpl : pLines (phTok w g age) lo n = [spaced (toks (ptok g age) lo n)] := by rw [pLines, if_pos hn, htk]
      rw [hpl, List.singleton_append] at h
      cases h with
      | nil => left; rw [readPhotons_nil, if_pos hn]
      | part h1 h2 =>
        rename_i p
        have hstep : ∀ q : List Char, readPhotons time n [q] = (do
            let vs ← collect (vecAt (pySplit q) 5) n 0
            let ts ← collect (fun i => floatAt (pySplit q) (4 + i * 5)) n 0
            pure ((vs, ts), [])) := by
          intro q
          simp only [readPhotons, h', ht.mpr hw, and_self, if_true, readPhotons5, readline, Int.toNat_natCast]
        rcases collect_age_cut g age n lo p h2 with h3 | h3 | ⟨y, h3, h4⟩
        · left; rw [hstep, h3]; rfl
        · left; rw [hstep, h3]
          exact bind_exit_of (collect_cases (vecAt_cases _ _) _ _) (fun _ _ => rfl)
        · right; right
          refine ⟨hn, y, ?_⟩
          rw [hstep, h3, h4]
          simp only [Res.bind_ok, Res.pure_eq, phLast, rAges, hw, if_true]
      | cons h1 =>
        rename_i T
        right; left
        refine ⟨T, ?_, h1, by simp⟩
        have := readPhotons_lines w time ht g age n lo T
        rw [hpl] at this
        exact this
    · have htk : phTok w g age = vtok g := by funext i; simp [phTok, hw]
      have htm : ¬ time < 0 := fun h => hw (ht.mp h)
      rw [htk] at h
      have hstep : readPhotons time n T = (do
          let x ← readVecs n T
          pure ((x.1, List.replicate n 0), x.2)) := by
        simp only [readPhotons, htm, and_false, if_false, readPhotons4, Int.toNat_natCast]
      rcases readVecs_cut g n lo rest T h with h1 | ⟨T', h1, h2, h3⟩ | ⟨_, y, h1⟩
      · left; rw [hstep, h1]; rfl
      · right; left
        refine ⟨T', ?_, h2, h3⟩
        rw [hstep, h1]
        simp only [Res.bind_ok, Res.pure_eq, rAges, hw, if_false]
      · right; right
        refine ⟨hn, y, ?_⟩
        rw [hstep, h1]
        simp only [Res.bind_ok, Res.pure_eq, rAges, hw, if_false, phLast]
  · have h0 : n = 0 := by omega
    subst h0
    right; left
    refine ⟨T, ?_, by simpa [pLines] using h, le_rfl⟩
    have : rAges w age lo 0 = [] := by unfold rAges; split_ifs <;> rfl
    simp [readPhotons, readPhotons4, readVecs, mapFrom, this]

/-- What is known about reading the pre-fission neutrons of a cut file. -/
structure PreCut (b : Bool) (npn : Int) (pren : List Vec4) (L rest : List (List Char)) : Prop where
  cut : ∀ T, Cut (L ++ rest) T → readPre b npn T = .exit ∨
    (∃ T', readPre b npn T = .ok (pren, T') ∧ Cut rest T' ∧ T'.length ≤ T.length) ∨
    (0 < npn ∧ ∃ y, readPre b npn T = .ok (lastEnergy y pren, []))
  pos : 0 < npn → readPre b npn [] = .exit
  zero : ¬ 0 < npn → readPre b npn [] = .ok (pren, [])

theorem preCut_light (rest : List (List Char)) : PreCut true 0 [] [] rest :=
  ⟨fun T h => Or.inr (Or.inl ⟨T, rfl, h, le_rfl⟩), fun h => absurd h (by decide), fun _ => rfl⟩

theorem preCut_heavy (ev : PView) (rest : List (List Char)) :
    PreCut false ev.nuPre (rPre ev) (pLines (vtok ev.preN) 0 ev.nuPre) rest := by
  by_cases h : 0 < ev.nuPre
  · have h' : (0 : Int) < ev.nuPre := by exact_mod_cast h
    have hr : ∀ T, readPre false ev.nuPre T = readVecs ev.nuPre T := by
      intro T; simp only [readPre, Bool.false_eq_true, if_false, h', if_true]
    refine ⟨fun T hT => ?_, fun _ => ?_, fun hn => absurd h' hn⟩
    · rw [hr]
      have := readVecs_cut ev.preN ev.nuPre 0 rest T hT
      simp only [rPre, h, if_true]
      rcases this with h1 | h1 | ⟨_, h1⟩
      · exact Or.inl h1
      · exact Or.inr (Or.inl h1)
      · exact Or.inr (Or.inr ⟨h', h1⟩)
    · rw [hr, readVecs_nil, if_pos h]
  · have h0 : ev.nuPre = 0 := by omega
    have hr : ∀ T, readPre false ev.nuPre T = .ok (rPre ev, T) := by
      intro T; simp [readPre, rPre, h0]
    refine ⟨fun T hT => Or.inr (Or.inl ⟨T, hr T, ?_, le_rfl⟩), fun hn => absurd hn (by omega), fun _ => hr []⟩
    simpa [pLines, h0] using hT

/-- A fragment line that is the last line of the file is refused. -/
theorem readFragment_nil (time : ℚ) (b : Bool) (line : List Char) : readFragment time b line [] = .exit := by
  unfold readFragment
  simp only
  refine bind_exit_of (intAt_cases _ _) fun _ _ => ?_
  refine bind_exit_of (intAt_cases _ _) fun _ _ => ?_
  refine bind_exit_of (floatAt_cases _ _) fun _ _ => ?_
  refine bind_exit_of (floatAt_cases _ _) fun _ _ => ?_
  refine bind_exit_of (intAt_cases _ _) fun _ _ => ?_
  refine bind_exit_of (floatAt_cases _ _) fun _ _ => ?_
  refine bind_exit_of (floatAt_cases _ _) fun _ _ => ?_
  refine bind_exit_of (intAt_cases _ _) fun _ _ => ?_
  refine bind_exit_of (intAt_cases _ _) fun _ _ => ?_
  refine bind_exit_of (intAt_cases _ _) fun _ _ => ?_
  simp only [readline, pySplit_nil]
  rw [floatAt_none (by simp)]; rfl

/-- The part of `readFragment` after the fragment line and the momentum line. -/
def readBody (time : ℚ) (b : Bool) (f : PyFrag) (ls : List (List Char)) : Res (PyFrag × List (List Char)) := do
  let (cm, ls) ← readVecs f.nn ls
  let (lab, ls) ← readVecs f.nn ls
  let (ph, ls) ← readPhotons time f.ng ls
  let (pren, ls) ← readPre b f.npn ls
  pure ({ f with cm, lab, phot := ph.1, ages := ph.2, pren }, ls)

/-- Numbers of the two first lines. -/
def rHead (f : PFrag) (npn : Int) (z : ℚ) : PyFrag :=
  { a := f.a, z := f.z, xe := rv 3 f.xe, j := rv 1 f.j, p := f.p, ke := rv 3 f.ke,
    kePost := rv 3 f.kePost, nn := f.nu, ng := f.nug, npn := npn,
    pre := (rv 3 f.pre.1, rv 3 f.pre.2.1, rv 3 f.pre.2.2), post := (rv 3 f.post.1, rv 3 f.post.2.1, z),
    cm := [], lab := [], phot := [], ages := [], pren := [] }

theorem readFragment_head (time : ℚ) (f : PFrag) (npn : Int) (b : Bool) (m : List Char) (T : List (List Char)) :
    readFragment time b (preSpaced (fragToks f (fmtInt npn)) ++ ['\n']) (m :: T) = (do
      let x0 ← floatAt (pySplit m) 0
      let x1 ← floatAt (pySplit m) 1
      let x2 ← floatAt (pySplit m) 2
      let x3 ← floatAt (pySplit m) 3
      let x4 ← floatAt (pySplit m) 4
      let x5 ← floatAt (pySplit m) 5
      readBody time b { rHead f npn x5 with pre := (x0, x1, x2), post := (x3, x4, x5) } T) := by
  unfold readFragment
  rw [split_pre _ (isTok_fragToks f _ (isTok_fmtInt npn))]
  simp only
  rw [intAt_int _ 0 f.a (by simp [fragToks]), intAt_int _ 1 f.z (by simp [fragToks]),
    floatAt_fixed _ 2 f.xe 3 (by norm_num) (by simp [fragToks]),
    floatAt_fixed _ 3 f.j 1 (by norm_num) (by simp [fragToks]),
    intAt_int _ 4 f.p (by simp [fragToks]),
    floatAt_fixed _ 5 f.ke 3 (by norm_num) (by simp [fragToks]),
    floatAt_fixed _ 6 f.kePost 3 (by norm_num) (by simp [fragToks]),
    intAt_int _ 7 f.nu (by simp [fragToks]), intAt_int _ 8 f.nug (by simp [fragToks]),
    intAt_int _ 9 npn (by simp [fragToks])]
  rfl

theorem readBody_cut (w time : ℚ) (ht : time < 0 ↔ w < 0) (ev : PView) (f : PFrag) (npn : Int) (lon log : Int) (b : Bool)
    (pren : List Vec4) (L rest T : List (List Char)) (hp : PreCut b npn pren L rest)
    (h : Cut (pLines (vtok ev.cmN) lon f.nu ++ (pLines (vtok ev.labN) lon f.nu ++
      (pLines (phTok w ev.phot ev.age) log f.nug ++ (L ++ rest)))) T) :
    readBody time b (rHead f npn (rv 3 f.post.2.2)) T = .exit ∨
      (∃ T', readBody time b (rHead f npn (rv 3 f.post.2.2)) T = .ok (rFrag w ev f lon log npn pren, T') ∧ Cut rest T' ∧
        T'.length ≤ T.length) ∨
      (∃ y, readBody time b (rHead f npn (rv 3 f.post.2.2)) T
        = .ok (setLast (decide (w < 0)) y (rFrag w ev f lon log npn pren), [])) := by
  unfold readBody
  simp only [rHead]
  rcases readVecs_cut ev.cmN f.nu lon _ T h with h1 | ⟨T1, h1, c1, l1⟩ | ⟨hn, y, h1⟩
  · left; rw [h1]; rfl
  · rw [h1]; simp only [Res.bind_ok]
    rcases readVecs_cut ev.labN f.nu lon _ T1 c1 with h2 | ⟨T2, h2, c2, l2⟩ | ⟨hn, y, h2⟩
    · left; rw [h2]; rfl
    · rw [h2]; simp only [Res.bind_ok]
      rcases readPhotons_cut w time ht ev.phot ev.age f.nug log _ T2 c2 with h3 | ⟨T3, h3, c3, l3⟩ | ⟨hg, y, h3⟩
      · left; rw [h3]; rfl
      · rw [h3]; simp only [Res.bind_ok]
        rcases hp.cut T3 c3 with h4 | ⟨T4, h4, c4, l4⟩ | ⟨hq, y, h4⟩
        · left; rw [h4]; rfl
        · right; left
          rw [h4]
          exact ⟨T4, rfl, c4, by omega⟩
        · right; right
          rw [h4]
          refine ⟨y, ?_⟩
          simp [setLast, rFrag, hq]
      · rw [h3]; simp only [Res.bind_ok]
        by_cases hq : 0 < npn
        · left; rw [hp.pos hq]; rfl
        · right; right
          rw [hp.zero hq]
          refine ⟨y, ?_⟩
          by_cases hw : w < 0 <;> simp [setLast, rFrag, hq, hg, phLast, hw]
    · rw [h2]; simp only [Res.bind_ok]
      rw [readPhotons_nil]
      by_cases hg : 0 < f.nug
      · left; rw [if_pos hg]; rfl
      · have hg0 : f.nug = 0 := by omega
        have ha : rAges w ev.age log 0 = [] := by unfold rAges; split_ifs <;> rfl
        rw [if_neg hg]; simp only [Res.bind_ok]
        by_cases hq : 0 < npn
        · left; rw [hp.pos hq]; rfl
        · right; right
          rw [hp.zero hq]
          refine ⟨y, ?_⟩
          simp [setLast, rFrag, hq, hg0, hn, mapFrom, ha]
  · left
    rw [h1]; simp only [Res.bind_ok]
    rw [readVecs_nil, if_pos hn]; rfl

theorem readBody_nil (w time : ℚ) (ev : PView) (f : PFrag) (npn : Int) (lon log : Int) (b : Bool) (pren : List Vec4)
    (L rest : List (List Char)) (y : ℚ) (hp : PreCut b npn pren L rest) :
    readBody time b (rHead f npn y) [] = .exit ∨
      readBody time b (rHead f npn y) [] = .ok (setLast (decide (w < 0)) y (rFrag w ev f lon log npn pren), []) := by
  unfold readBody
  simp only [rHead]
  rw [readVecs_nil]
  by_cases hn : 0 < f.nu
  · left; rw [if_pos hn]; rfl
  · have hn0 : f.nu = 0 := by omega
    rw [if_neg hn]; simp only [Res.bind_ok]
    rw [readVecs_nil, if_neg hn]; simp only [Res.bind_ok]
    rw [readPhotons_nil]
    by_cases hg : 0 < f.nug
    · left; rw [if_pos hg]; rfl
    · have hg0 : f.nug = 0 := by omega
      have ha : rAges w ev.age log 0 = [] := by unfold rAges; split_ifs <;> rfl
      rw [if_neg hg]; simp only [Res.bind_ok]
      by_cases hq : 0 < npn
      · left; rw [hp.pos hq]; rfl
      · right
        rw [hp.zero hq]
        simp [setLast, rFrag, hq, hg0, hn0, mapFrom, ha]

/-- A fragment of a cut file. -/
theorem readFragment_cut (w time : ℚ) (ht : time < 0 ↔ w < 0) (ev : PView) (f : PFrag) (npn : Int) (lon log : Int)
    (b : Bool) (pren : List Vec4) (L rest T : List (List Char)) (hp : PreCut b npn pren L rest)
    (h : Cut ((fragLines w ev f (fmtInt npn) lon log).tail ++ (L ++ rest)) T) :
    readFragment time b (preSpaced (fragToks f (fmtInt npn)) ++ ['\n']) T = .exit ∨
      (∃ T', readFragment time b (preSpaced (fragToks f (fmtInt npn)) ++ ['\n']) T
          = .ok (rFrag w ev f lon log npn pren, T') ∧ Cut rest T' ∧ T'.length ≤ T.length) ∨
      (∃ y, readFragment time b (preSpaced (fragToks f (fmtInt npn)) ++ ['\n']) T
        = .ok (setLast (decide (w < 0)) y (rFrag w ev f lon log npn pren), [])) := by
  have htail : (fragLines w ev f (fmtInt npn) lon log).tail ++ (L ++ rest)
      = preSpaced (momToks f) :: (pLines (vtok ev.cmN) lon f.nu ++ (pLines (vtok ev.labN) lon f.nu ++
          (pLines (phTok w ev.phot ev.age) log f.nug ++ (L ++ rest)))) := by
    simp [fragLines]
  rw [htail] at h
  have hm : ∀ j x, (momToks f)[j]? = some (fmtFixed 3 x) → floatAt (momToks f) j = .ok (rv 3 x) :=
    fun j x hx => floatAt_fixed _ j x 3 (by norm_num) hx
  cases h with
  | nil => left; exact readFragment_nil _ _ _
  | part h1 h2 =>
    rename_i p
    rw [readFragment_head]
    have hs := split_cut h2 (split_pre _ (isTok_momToks f))
    have hl : (momToks f).length = 6 := rfl
    rw [hl] at hs
    rcases hs with hs | hs
    · left
      refine bind_exit_of (floatAt_cases _ _) fun _ _ => ?_
      refine bind_exit_of (floatAt_cases _ _) fun _ _ => ?_
      refine bind_exit_of (floatAt_cases _ _) fun _ _ => ?_
      refine bind_exit_of (floatAt_cases _ _) fun _ _ => ?_
      refine bind_exit_of (floatAt_cases _ _) fun _ _ => ?_
      rw [floatAt_none (by omega)]; rfl
    · rw [floatAt_congr (hs 0 (by omega)), floatAt_congr (hs 1 (by omega)), floatAt_congr (hs 2 (by omega)),
        floatAt_congr (hs 3 (by omega)), floatAt_congr (hs 4 (by omega)), hm 0 f.pre.1 rfl, hm 1 f.pre.2.1 rfl,
        hm 2 f.pre.2.2 rfl, hm 3 f.post.1 rfl, hm 4 f.post.2.1 rfl]
      simp only [Res.bind_ok]
      rcases floatAt_cases (pySplit p) 5 with h3 | ⟨y, h3⟩
      · left; rw [h3]; rfl
      · rw [h3, Res.bind_ok]
        rcases readBody_nil w time ev f npn lon log b pren L rest y hp with h4 | h4
        · exact Or.inl h4
        · exact Or.inr (Or.inr ⟨y, h4⟩)
  | cons h1 =>
    rename_i T
    rw [readFragment_head, split_pre _ (isTok_momToks f), hm 0 f.pre.1 rfl, hm 1 f.pre.2.1 rfl,
        hm 2 f.pre.2.2 rfl, hm 3 f.post.1 rfl, hm 4 f.post.2.1 rfl, hm 5 f.post.2.2 rfl]
    simp only [Res.bind_ok]
    rcases readBody_cut w time ht ev f npn lon log b pren L rest T hp h1 with h2 | ⟨T', h2, h3, h4⟩ | h2
    · exact Or.inl h2
    · exact Or.inr (Or.inl ⟨T', h2, h3, by simp; omega⟩)
    · exact Or.inr (Or.inr h2)

/-! ## The whole file -/

theorem firstOf_nil (timed : Bool) (full : List PyFrag) : FirstOf timed [] full := ⟨0, Or.inl rfl⟩

theorem firstOf_last (timed : Bool) (y : ℚ) (g : PyFrag) (full : List PyFrag) :
    FirstOf timed [setLast timed y g] (g :: full) := ⟨0, Or.inr ⟨g, y, rfl, rfl⟩⟩

theorem firstOf_cons {timed : Bool} {fs full : List PyFrag} (g : PyFrag) (h : FirstOf timed fs full) :
    FirstOf timed (g :: fs) (g :: full) := by
  obtain ⟨n, rfl | ⟨a, y, h1, rfl⟩⟩ := h
  · exact ⟨n + 1, Or.inl rfl⟩
  · exact ⟨n + 1, Or.inr ⟨a, y, h1, rfl⟩⟩

theorem readLoop_nil (time : ℚ) (max : Option Nat) (fuel c : Nat) (b : Bool) :
    readLoop time max (fuel + 1) c b [] = .ok [] := by
  simp [readLoop, readline]

/-- One pass of the loop on a cut file. -/
theorem readLoop_step (w time : ℚ) (ht : time < 0 ↔ w < 0) (max : Option Nat) (ev : PView) (f : PFrag) (npn : Int)
    (lon log : Int) (b : Bool) (pren : List Vec4) (L rest : List (List Char)) (full : List PyFrag)
    (hp : PreCut b npn pren L rest)
    (hrest : ∀ fuel c T, T.length < fuel → Cut rest T → readLoop time max fuel c (!b) T = .exit ∨
      ∃ fs, readLoop time max fuel c (!b) T = .ok fs ∧ FirstOf (decide (w < 0)) fs full) :
    ∀ fuel c T, T.length < fuel → Cut (fragLines w ev f (fmtInt npn) lon log ++ (L ++ rest)) T →
      readLoop time max fuel c b T = .exit ∨
        ∃ fs, readLoop time max fuel c b T = .ok fs ∧
          FirstOf (decide (w < 0)) fs (rFrag w ev f lon log npn pren :: full) := by
  intro fuel c T hf h
  obtain ⟨fuel, rfl⟩ : ∃ k, fuel = k + 1 := ⟨fuel - 1, by omega⟩
  by_cases hlim : limitReached max (c + 1) = true
  · right
    refine ⟨[], ?_, firstOf_nil _ _⟩
    rw [readLoop]
    simp only [hlim, if_true]
  · rw [fragLines_cons, List.cons_append] at h
    cases h with
    | nil => right; exact ⟨[], readLoop_nil _ _ _ _ _, firstOf_nil _ _⟩
    | part h1 h2 =>
      left
      rw [readLoop_line _ _ _ _ _ _ _ h1 hlim, readFragment_nil]; rfl
    | cons h1 =>
      rename_i T
      rw [readLoop_line _ _ _ _ _ _ _ (by simp) hlim]
      simp only [List.length_cons] at hf
      rcases readFragment_cut w time ht ev f npn lon log b pren L rest T hp h1 with h2 | ⟨T', h2, h3, h4⟩ | ⟨y, h2⟩
      · left; rw [h2]; rfl
      · rw [h2, Res.bind_ok]
        rcases hrest fuel (c + 1) T' (by omega) h3 with h5 | ⟨fs, h5, h6⟩
        · left; simp only [h5]; rfl
        · right
          simp only [h5]
          exact ⟨_, rfl, firstOf_cons _ h6⟩
      · right
        obtain ⟨fuel, rfl⟩ : ∃ k, fuel = k + 1 := ⟨fuel - 1, by omega⟩
        rw [h2, Res.bind_ok]
        simp only [readLoop_nil]
        exact ⟨_, rfl, firstOf_last _ _ _ _⟩

theorem readLoop_cut (w time : ℚ) (ht : time < 0 ↔ w < 0) (max : Option Nat) (evs : List PView) :
    ∀ fuel c T, T.length < fuel → Cut (evs.flatMap (evLines w)) T → readLoop time max fuel c true T = .exit ∨
      ∃ fs, readLoop time max fuel c true T = .ok fs ∧ FirstOf (decide (w < 0)) fs (evs.flatMap (rEvent w)) := by
  induction evs with
  | nil =>
    intro fuel c T hf h
    cases h
    obtain ⟨fuel, rfl⟩ : ∃ k, fuel = k + 1 := ⟨fuel - 1, by simp at hf; omega⟩
    right
    exact ⟨[], readLoop_nil _ _ _ _ _, firstOf_nil _ _⟩
  | cons ev evs ih =>
    intro fuel c T hf h
    have hz : fmtInt 0 = ['0'] := by decide
    have hL : (ev :: evs).flatMap (evLines w) = fragLines w ev ev.light (fmtInt 0) 0 0 ++ ([] ++
        (fragLines w ev ev.heavy (fmtInt ev.nuPre) ev.light.nu ev.light.nug ++
          (pLines (vtok ev.preN) 0 ev.nuPre ++ evs.flatMap (evLines w)))) := by
      rw [hz]; simp [evLines]
    rw [hL] at h
    exact readLoop_step w time ht max ev ev.light 0 0 0 true [] [] _ _ (preCut_light _)
      (readLoop_step w time ht max ev ev.heavy ev.nuPre ev.light.nu ev.light.nug false (rPre ev) _ _ _
        (preCut_heavy ev _) ih) fuel c T hf h

theorem readHeader_cases (l : List Char) : readHeader l = .exit ∨ ∃ h, readHeader l = .ok h := by
  unfold readHeader
  split
  · rename_i rest
    dsimp only
    rcases intAt_cases (pySplit rest) 0 with h | ⟨x, h⟩
    · left; rw [h]; rfl
    rw [h, Res.bind_ok]
    rcases floatAt_cases (pySplit rest) 1 with h | ⟨x, h⟩
    · left; rw [h]; rfl
    rw [h, Res.bind_ok]
    unfold headerTime
    split_ifs
    · rcases floatAt_cases (pySplit rest) ((pySplit rest).length - 1) with h | ⟨x, h⟩
      · left; rw [h]; rfl
      · right; rw [h]; exact ⟨_, rfl⟩
    · right; exact ⟨_, rfl⟩
  · left; rfl

/-- The lines of a history file. -/
theorem rankFile_lines (zaid : Int) (einc w : ℚ) (evs : List PView) :
    ∃ l, headerLine zaid einc w = l ++ ['\n'] ∧
      rankFile 0 zaid einc w evs = (l :: evs.flatMap (evLines w)).flatMap (fun l => l ++ ['\n']) ∧
      ∀ x ∈ l :: evs.flatMap (evLines w), '\n' ∉ x := by
  obtain ⟨l, hl, hn⟩ := headerLine_eq zaid einc w
  refine ⟨l, hl, ?_, ?_⟩
  · simp only [rankFile, if_true, hl, List.flatMap_cons]
    congr 1
    rw [List.flatMap_assoc]
    apply List.flatMap_congr
    intro a _
    exact printEvent_eq w a
  · intro x hx
    simp only [List.mem_cons, List.mem_flatMap] at hx
    rcases hx with rfl | ⟨ev, _, hx⟩
    · exact hn
    · exact evLines_no_newline w ev x hx

/-- The reader on a cut file. -/
theorem readHistory_cut (nev : Option Nat) (zaid : Int) (einc w : ℚ) (evs : List PView) (k : Nat) :
    readHistory nev ((rankFile 0 zaid einc w evs).take k) = .exit ∨
      (∃ h, readHistory nev ((rankFile 0 zaid einc w evs).take k) = .ok (h, [])) ∨
      ∃ fs, readHistory nev ((rankFile 0 zaid einc w evs).take k) = .ok (⟨zaid, gVal einc, gVal w⟩, fs) ∧
        FirstOf (decide (w < 0)) fs (evs.flatMap (rEvent w)) := by
  obtain ⟨l, hl, htxt, hn⟩ := rankFile_lines zaid einc w evs
  have hc := cut_take _ hn k
  rw [← htxt] at hc
  unfold readHistory
  generalize fileLines ((rankFile 0 zaid einc w evs).take k) = T at hc ⊢
  cases hc with
  | nil => left; rfl
  | part h1 h2 =>
    rename_i p
    simp only [readline]
    rcases readHeader_cases p with h | ⟨h, hh⟩
    · left; rw [h]; rfl
    · right; left
      refine ⟨h, ?_⟩
      rw [hh, Res.bind_ok, List.length_nil, Nat.zero_add, readLoop_nil]; rfl
  | cons h1 =>
    rename_i T
    simp only [readline]
    rw [← hl, readHeader_line]
    simp only [Res.bind_ok]
    rcases readLoop_cut w (gVal w) (sig6_neg (sig6_gVal w)) (nev.map (2 * ·)) evs (T.length + 1) 0 T (by omega) h1
      with h | ⟨fs, h, h'⟩
    · left; rw [h]; rfl
    · right; right
      exact ⟨fs, by rw [h]; rfl, h'⟩

end CGMF.History
