import Verif.Proofs.ChanceText
import Verif.Props.Prefission
import Mathlib.Data.Rat.Floor

/-! # C111: the multi-chance fission probabilities belong to the target -/

namespace CGMF.Props

open CGMF.Data CGMF.Text CGMF.YFile CGMF.Spec CGMF.Pre

variable {K : Type} [Field K] [LinearOrder K] [IsStrictOrderedRing K] [FloorRing K]

/-- The table in a block. -/
def tableOf (b : CBlock K) : Chance K := ⟨b.nn, b.barrier.vals, b.energies, b.probs⟩

/-- **C111.** For every well-formed file that lists the target, the reader uses the target's first block and nothing
else: the result is what the probabilities in that block give, with the block's own barriers. -/
theorem C111_own (inum : List Char → Option Int) (num : List Char → Option K) (target : Int) (e : K) (nemit : Int)
    (its : List (CItem K)) (hg : ∀ i ∈ its, i.Good inum num) (b : CBlock K) (hb : blockOf its target = some b) (fuel : Nat)
    (hf : its.length < fuel) :
    readChance inum num target e nemit fuel (some (cText its)) =
      match multi (tableOf b) e nemit with
      | .ok m => .ok (some ⟨b.barrier.vals.map some, m⟩)
      | .exit => .exit
      | .ub => .ub := by
  obtain ⟨pre, post, rfl, hid, hpre⟩ := blockOf_split its target b hb
  have hbg : b.Good inum num := hg (CItem.block b) (by simp)
  obtain ⟨f, rfl⟩ : ∃ f, fuel = (f + 1) + pre.length := ⟨fuel - 1 - pre.length, by simp at hf; omega⟩
  have e1 : cText (pre ++ CItem.block b :: post) = cText pre ++ (b.head ++ '\n' ::
      (b.barrier.text ++ b.rows.flatMap NLine.text ++ cText post)) := by simp [cText, CItem.text, CBlock.text]
  obtain ⟨h1, h2⟩ := header_good inum _ _ _ _ hbg.1
  unfold readChance
  simp only []
  rw [e1, loop_items inum num target e nemit _ pre (f + 1) (fun x hx => hg x (by simp [hx])) hpre,
    getlineC_line _ _ _ hbg.1.1 hbg.1.2.1, chanceLoop]
  simp only [Bool.false_eq_true, if_false, if_neg h2, h1, hid, if_true]
  rw [block_good inum num e nemit b hbg]
  have : CBlock.chance b = tableOf b := rfl
  rw [this]
  cases multi (tableOf b) e nemit <;> rfl

theorem tableOK (inum : List Char → Option Int) (num : List Char → Option K) (b : CBlock K) (hb : b.Good inum num)
    (h0 : ∀ r ∈ b.probs, ∀ p ∈ r, 0 ≤ p) : BlockOK (tableOf b) := by
  obtain ⟨-, -, h2⟩ := hb
  refine ⟨?_, ?_, h0⟩
  · show b.probs.length = b.energies.length
    have : b.energies.length = b.rows.length := energies_length num (b.nn + 1) b.rows h2
    rw [this]; simp [CBlock.probs]
  · intro r hr
    obtain ⟨l, hl, rfl⟩ := List.mem_map.1 (show r ∈ b.rows.map fun r => r.vals.tail from hr)
    have := (h2 l hl).2.2.1
    simp [NLine.vals, this]
    rfl

/-- **C111.** Read from the file, the probabilities of the numbers of pre-fission neutrons are non-negative, add up to
one and are proportional to the linear interpolation of the target's own rows at the incident energy, when that lies above the
first and not above the last tabulated energy and fission without neutrons has positive probability. -/
theorem C111_distribution (inum : List Char → Option Int) (num : List Char → Option K) (target : Int) (e : K) (nemit : Int)
    (its : List (CItem K)) (hg : ∀ i ∈ its, i.Good inum num) (b : CBlock K) (hb : blockOf its target = some b) (fuel : Nat)
    (hf : its.length < fuel) (h0 : ∀ r ∈ b.probs, ∀ p ∈ r, 0 ≤ p) (x y : K) (hx : b.energies.head? = some x)
    (hy : b.energies.getLast? = some y) (h1 : x < e) (h2 : e ≤ y) (hne : 0 ≤ nemit)
    (hpos : ∀ v, Interpolated (tableOf b) e 0 v → 0 < v) :
    ∃ m s, readChance inum num target e nemit fuel (some (cText its)) = .ok (some ⟨b.barrier.vals.map some, m⟩) ∧
      0 ≤ m.nemit ∧ m.nemit ≤ b.nn ∧ m.prob.length = b.nn + 1 ∧ 0 < s ∧
      (∀ (j : Nat) (p : K), (j : Int) ≤ m.nemit → m.prob[j]? = some p →
        0 ≤ p ∧ p ≤ m.pmax ∧ Interpolated (tableOf b) e j (p * s)) ∧
      (m.prob.take (m.nemit + 1).toNat).sum = 1 ∧ m.pmax ∈ m.prob.take (m.nemit + 1).toNat := by
  have hmem : CItem.block b ∈ its := by
    obtain ⟨pre, post, rfl, -, -⟩ := blockOf_split its target b hb
    simp
  have hbg : b.Good inum num := hg _ hmem
  obtain ⟨m, s, k1, k2⟩ := C50_distribution_partial (tableOf b) e (tableOK inum num b hbg h0) x y hx hy h1 h2 nemit hne hpos
  refine ⟨m, s, ?_, k2⟩
  rw [C111_own inum num target e nemit its hg b hb fuel hf, k1]

/-- **C111.** A target that the file does not list stops the program when it could emit a neutron; otherwise the reader
returns without having set anything. -/
theorem C111_absent (inum : List Char → Option Int) (num : List Char → Option K) (target : Int) (e : K) (nemit : Int)
    (its : List (CItem K)) (hg : ∀ i ∈ its, i.Good inum num) (hb : blockOf its target = none) (fuel : Nat)
    (hf : its.length < fuel) :
    readChance inum num target e nemit fuel (some (cText its)) = if 0 < nemit then .exit else .ok none := by
  obtain ⟨f, rfl⟩ : ∃ f, fuel = (f + 1) + its.length := ⟨fuel - 1 - its.length, by omega⟩
  have h1 : ∀ b ∈ cBlocks its, b.id ≠ target := by
    intro b hbm h
    have := List.find?_eq_none.1 hb b hbm
    simp [h] at this
  have h2 := loop_items inum num target e nemit [] its (f + 1) hg h1
  rw [List.append_nil, getlineC_nil 399 (by decide)] at h2
  unfold readChance
  simp only []
  rw [h2, chanceLoop]
  simp [thenDo]

/-- **C111.** A missing file stops the program. -/
theorem C111_missing (inum : List Char → Option Int) (num : List Char → Option K) (target : Int) (e : K) (nemit : Int)
    (fuel : Nat) : readChance inum num target e nemit fuel none = .exit := rfl

/-- **C111, refuted for a long comment.** A comment of 399 characters or more before the target's block: the reader never
returns. -/
theorem C111_long_line (inum : List Char → Option Int) (num : List Char → Option K) (target : Int) (e : K) (nemit : Int)
    (its : List (CItem K)) (hg : ∀ i ∈ its, i.Good inum num) (hb : blockOf its target = none) (l r : List Char)
    (hl : '\n' ∉ l) (hlen : 399 ≤ l.length) (hc : l.head? = some '#') (fuel : Nat) :
    readChance inum num target e nemit fuel (some (cText its ++ (l ++ '\n' :: r))) = .more := by
  have h1 : ∀ b ∈ cBlocks its, b.id ≠ target := by
    intro b hbm h
    have := List.find?_eq_none.1 hb b hbm
    simp [h] at this
  have h2 := loop_items inum num target e nemit (l ++ '\n' :: r) its fuel hg h1
  rw [loop_long' inum num target e nemit l r hl hlen hc] at h2
  have h3 := chanceLoop_mono' inum num target e nemit _ _ _ _ h2
  unfold readChance
  simp only []
  rw [h3]; rfl

/-- **C111, refuted for a file that ends too early.** When the file ends before the last energy of the target's block, the
numbers that are missing are read from memory that was never written, unless the incident energy is below the first
energy. -/
theorem C111_cut (inum : List Char → Option Int) (num : List Char → Option K) (target : Int) (e : K) (nemit : Int)
    (its : List (CItem K)) (hg : ∀ i ∈ its, i.Good inum num) (hb : blockOf its target = none) (head : List Char) (nn ne : Nat)
    (hh : HeadLine inum head target (ne + 1) nn) (cs : List (Cell K)) (hc : ∀ c ∈ cs, c.Good num)
    (hl : cs.length ≤ (nn + 1) + ne * (nn + 2)) (hfirst : ∀ c, cs[nn + 1]? = some c → c.val ≤ e) (fuel : Nat)
    (hf : its.length < fuel) :
    readChance inum num target e nemit fuel (some (cText its ++ (head ++ '\n' :: cs.flatMap Cell.text))) = .ub := by
  obtain ⟨f, rfl⟩ : ∃ f, fuel = (f + 1) + its.length := ⟨fuel - 1 - its.length, by omega⟩
  have h1 : ∀ b ∈ cBlocks its, b.id ≠ target := by
    intro b hbm h
    have := List.find?_eq_none.1 hb b hbm
    simp [h] at this
  obtain ⟨h3, h4⟩ := header_good inum _ _ _ _ hh
  unfold readChance
  simp only []
  rw [loop_items inum num target e nemit _ its (f + 1) hg h1, getlineC_line _ _ _ hh.1 hh.2.1, chanceLoop]
  simp only [Bool.false_eq_true, if_false, if_neg h4, h3, if_true]
  rw [block_cut num e nemit nn ne cs hc hl]
  cases hx : cs[nn + 1]? with
  | none => rfl
  | some c => simp only []; rw [if_neg (not_lt.2 (hfirst c hx))]; rfl

/-! ## Examples -/

namespace ChanceDemo

/-- Numbers with at most one point, as in the file. -/
def num (w : List Char) : Option ℚ := match pyFloat w with | .ok v => some v | _ => none

/-- Integers. -/
def int (w : List Char) : Option Int := match pyInt w with | .ok v => some v | _ => none

def cell (w : String) (g : String) (v : ℚ) : Cell ℚ := ⟨w.toList, g.toList, v⟩

/-- `94239 2 1`, a line of barriers and two energies. -/
def pu : CBlock ℚ := ⟨"94239 2 1".toList, 94239, 1, ⟨[], [cell "6.25" " " (25 / 4), cell "5.75" "\n" (23 / 4)]⟩,
  [⟨[], [cell "0" " " 0, cell "100" " " 100, cell "0" "\n" 0]⟩,
   ⟨" ".toList, [cell "10" " " 10, cell "50" "  " 50, cell "50" " \n" 50]⟩]⟩

/-- `92235 1 0`. -/
def u : CBlock ℚ := ⟨"92235 1 0".toList, 92235, 0, ⟨[], [cell "6" "\n" 6]⟩, [⟨[], [cell "20" " " 20, cell "100" "\n" 100]⟩]⟩

def items : List (CItem ℚ) := [.comment "# data".toList, .block u, .other [], .block pu]

instance (num : List Char → Option ℚ) (c : Cell ℚ) : Decidable (c.Good num) := by
  unfold Cell.Good Word Gap; infer_instance

theorem line {l : NLine ℚ} {m : Nat} (t : List Char) (a : ∀ x ∈ l.lead, isWs x = true) (b : ∀ c ∈ l.cells, c.Good num)
    (c : l.cells.length = m) (d : l.text = t ++ ['\n']) (e : '\n' ∉ t) (f : t.length < 399) : l.Good num m :=
  ⟨a, b, c, t, d, e, f⟩

theorem uHead : HeadLine int u.head 92235 1 0 :=
  ⟨by decide, by decide, by decide, "92235".toList, "1".toList, "0".toList, [], by decide +kernel, by decide +kernel,
    by decide +kernel, by decide +kernel⟩

theorem puHead : HeadLine int pu.head 94239 2 1 :=
  ⟨by decide, by decide, by decide, "94239".toList, "2".toList, "1".toList, [], by decide +kernel, by decide +kernel,
    by decide +kernel, by decide +kernel⟩

theorem uGood : u.Good int num := by
  refine ⟨uHead, line "6".toList (by decide) (by decide +kernel) (by decide) (by decide +kernel) (by decide) (by decide), ?_⟩
  intro r hr
  obtain rfl := List.mem_singleton.1 (show r ∈ [_] from hr)
  exact line "20 100".toList (by decide) (by decide +kernel) (by decide) (by decide +kernel) (by decide) (by decide)

theorem puGood : pu.Good int num := by
  refine ⟨puHead, line "6.25 5.75".toList (by decide) (by decide +kernel) (by decide) (by decide +kernel) (by decide) (by decide), ?_⟩
  intro r hr
  rcases List.mem_cons.1 (show r ∈ [_, _] from hr) with rfl | hr
  · exact line "0 100 0".toList (by decide) (by decide +kernel) (by decide) (by decide +kernel) (by decide) (by decide)
  · obtain rfl := List.mem_singleton.1 hr
    exact line " 10 50  50 ".toList (by decide) (by decide +kernel) (by decide) (by decide +kernel) (by decide) (by decide)

theorem good : ∀ i ∈ items, i.Good int num := by
  intro i hi
  simp only [items, List.mem_cons, List.not_mem_nil, or_false] at hi
  rcases hi with rfl | rfl | rfl | rfl
  · exact ⟨by decide, by decide, by decide⟩
  · exact uGood
  · exact ⟨by decide, by decide, by decide, by decide⟩
  · exact puGood

/-- The file has the block of plutonium after another one. -/
example : blockOf items 94239 = some pu := rfl

/-- At 5 MeV three quarters of the fissions come without a neutron. -/
example : readChance int num 94239 5 3 9 (some (cText items)) =
    .ok (some ⟨[some (25 / 4), some (23 / 4)], ⟨1, [3 / 4, 1 / 4], 3 / 4⟩⟩) := by
  rw [C111_own int num 94239 5 3 items good pu rfl 9 (by decide)]
  have : multi (tableOf pu) 5 3 = .ok ⟨1, [3 / 4, 1 / 4], 3 / 4⟩ := by decide +kernel
  rw [this]; rfl

/-- The hypotheses of the distribution. -/
example : ∃ m s, readChance int num 94239 5 3 9 (some (cText items)) = .ok (some ⟨pu.barrier.vals.map some, m⟩) ∧
    0 ≤ m.nemit ∧ m.nemit ≤ pu.nn ∧ m.prob.length = pu.nn + 1 ∧ 0 < s ∧
      (∀ (j : Nat) (p : ℚ), (j : Int) ≤ m.nemit → m.prob[j]? = some p →
        0 ≤ p ∧ p ≤ m.pmax ∧ Interpolated (tableOf pu) 5 j (p * s)) ∧
      (m.prob.take (m.nemit + 1).toNat).sum = 1 ∧ m.pmax ∈ m.prob.take (m.nemit + 1).toNat := by
  refine C111_distribution int num 94239 5 3 items good pu rfl 9 (by decide) (by decide +kernel) 0 10 rfl rfl (by norm_num)
    (by norm_num) (by norm_num) ?_
  rintro v ⟨i, e0, e1, p0, p1, r0, r1, h1, h2, h3, h4, h5, h6, h7, h8, h9⟩
  have hE : (tableOf pu).energies = [0, 10] := rfl
  have hP : (tableOf pu).pf = [[100, 0], [50, 50]] := rfl
  rw [hE] at h1 h2
  rw [hP] at h5 h6
  match i, h1, h2, h5, h6 with
  | 0, h1, h2, h5, h6 =>
    simp at h1 h2 h5 h6
    subst h1 h2 h5 h6
    simp at h7 h8
    subst h7 h8
    linarith
  | 1, h1, h2, _, _ => simp at h2
  | n + 2, h1, h2, _, _ => simp at h2

example : readChance int num 98249 5 3 9 (some (cText items)) = .exit :=
  (C111_absent int num 98249 5 3 items good rfl 9 (by decide)).trans (by simp)

/-- The block ends after the first energy. -/
example : readChance int num 94239 5 3 9 (some (cText (items.take 3) ++ ("94239 2 1".toList ++ '\n' ::
    [cell "6.25" " " (25 / 4), cell "5.75" "\n" (23 / 4), cell "0" " " 0].flatMap Cell.text))) = .ub := by
  refine C111_cut int num 94239 5 3 (items.take 3) (fun i hi => good i (List.mem_of_mem_take hi)) rfl _ 1 1
    puHead _ (by decide +kernel) (by decide) ?_ 9 (by decide)
  intro c hc
  simp at hc
  subst hc
  show (0 : ℚ) ≤ 5
  norm_num

/-- A comment of 399 characters. -/
example : '\n' ∉ List.replicate 399 '#' ∧ 399 ≤ (List.replicate 399 '#').length ∧ (List.replicate 399 '#').head? = some '#' := by
  refine ⟨fun h => absurd (List.eq_of_mem_replicate h) (by decide), by rw [List.length_replicate], by rw [List.head?_replicate]; rfl⟩

end ChanceDemo

end CGMF.Props
