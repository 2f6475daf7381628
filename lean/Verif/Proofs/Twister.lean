import Verif.Tactics
import Verif.Model.Twister

/-!
# The engine as a sequence of words; every step of it can be undone
-/

namespace CGMF.Twist

/-! ## Steps that can be undone -/

theorem xor_left_inj {w : Nat} {a b c : BitVec w} (h : a ^^^ b = a ^^^ c) : b = c := by
  have := congrArg (fun z => a ^^^ z) h
  simpa [← BitVec.xor_assoc] using this

theorem shr_inj {w k : Nat} (hk : 0 < k) {x y : BitVec w} (h : x ^^^ (x >>> k) = y ^^^ (y >>> k)) : x = y := by
  have key : ∀ n i, w ≤ i + n → x.getLsbD i = y.getLsbD i := by
    intro n
    induction n with
    | zero => intro i hi; rw [BitVec.getLsbD_of_ge x i (by omega), BitVec.getLsbD_of_ge y i (by omega)]
    | succ n ih =>
      intro i hi
      have hb := congrArg (fun z => z.getLsbD i) h
      simp only [BitVec.getLsbD_xor, BitVec.getLsbD_ushiftRight] at hb
      rw [ih (k + i) (by omega)] at hb
      simpa using hb
  exact BitVec.eq_of_getLsbD_eq fun i _ => key w i (by omega)

theorem shl_inj {w k : Nat} (hk : 0 < k) {m x y : BitVec w} (h : x ^^^ ((x <<< k) &&& m) = y ^^^ ((y <<< k) &&& m)) : x = y := by
  have key : ∀ i, i < w → x.getLsbD i = y.getLsbD i := by
    intro i
    induction i using Nat.strong_induction_on with
    | _ i ih =>
      intro hi
      have hb := congrArg (fun z => z.getLsbD i) h
      simp only [BitVec.getLsbD_xor, BitVec.getLsbD_and, BitVec.getLsbD_shiftLeft] at hb
      by_cases hik : i < k
      · simpa [hik] using hb
      · rw [ih (i - k) (by omega) (by omega)] at hb
        simpa using hb
  exact BitVec.eq_of_getLsbD_eq fun i hi => key i hi

theorem temper_inj {x y : Word} (h : temper x = temper y) : x = y := by
  unfold temper at h
  exact shr_inj (by omega) (shl_inj (by omega) (shl_inj (by omega) (shr_inj (by omega) h)))

theorem mul_inj {x y : Word} (h : 1812433253#32 * x = 1812433253#32 * y) : x = y := by
  have e : (2520285293#32) * 1812433253#32 = 1#32 := by decide +kernel
  have := congrArg (fun z => 2520285293#32 * z) h
  simpa only [← BitVec.mul_assoc, e, BitVec.one_mul] using this

theorem seedStep_inj {i : Nat} {x y : Word} (h : seedStep i x = seedStep i y) : x = y := by
  unfold seedStep at h
  exact shr_inj (by omega) (mul_inj ((BitVec.add_left_inj _).mp h))

theorem top_bit (z : BitVec 32) : (z >>> 1).getLsbD 31 = false := by
  rw [BitVec.getLsbD_ushiftRight, BitVec.getLsbD_of_ge _ _ (by omega)]

theorem twist_inj {x y : Word} (h : twist x = twist y) : x = y := by
  unfold twist at h
  have h31 := congrArg (fun z => z.getLsbD 31) h
  simp only [BitVec.getLsbD_xor, top_bit, Bool.false_xor] at h31
  have e1 : (0x9908b0df#32).getLsbD 31 = true := by decide
  have e0 : (0#32).getLsbD 31 = false := by decide
  have h0 : x.getLsbD 0 = y.getLsbD 0 := by
    cases hx : x.getLsbD 0 <;> cases hy : y.getLsbD 0 <;> simp_all
  rw [h0] at h
  have hs : x >>> 1 = y >>> 1 := by
    rw [BitVec.xor_comm, BitVec.xor_comm (y >>> 1)] at h
    exact xor_left_inj h
  apply BitVec.eq_of_getLsbD_eq
  intro i hi
  cases i with
  | zero => exact h0
  | succ i =>
    have := congrArg (fun z => z.getLsbD i) hs
    simp only [BitVec.getLsbD_ushiftRight] at this
    rwa [Nat.add_comm 1 i] at this

/-- The lower mask by bits. -/
theorem low_mask {i : Nat} (hi : i < 32) : (0x7fffffff#32).getLsbD i = decide (i < 31) := by
  revert i; decide

/-- The upper mask by bits. -/
theorem high_mask {i : Nat} (hi : i < 32) : (0x80000000#32).getLsbD i = decide (i = 31) := by
  revert i; decide

theorem join_bit (x y : Word) {i : Nat} (hi : i < 32) :
    (join x y).getLsbD i = if i = 31 then x.getLsbD i else y.getLsbD i := by
  unfold join
  rw [BitVec.getLsbD_or, BitVec.getLsbD_and, BitVec.getLsbD_and, low_mask hi, high_mask hi]
  by_cases h : i = 31
  · simp [h]
  · have : i < 31 := by omega
    simp [h, this]

/-- A word is determined by its two halves, one in the join before it and one in the join after it. -/
theorem joined {w x y w' x' y' : Word} (h1 : join w x = join w' x') (h2 : join x y = join x' y') : x = x' := by
  apply BitVec.eq_of_getLsbD_eq
  intro i hi
  have a := congrArg (fun z => z.getLsbD i) h1
  have b := congrArg (fun z => z.getLsbD i) h2
  simp only [join_bit _ _ hi] at a b
  by_cases h : i = 31
  · simpa [h] using b
  · simpa [h] using a

/-! ## The sequence of words -/

/-- The state after `n` calls. -/
def after : Nat → List Word → List Word
  | 0, st => st
  | n + 1, st => after n (next st).2

/-- Word `n` of the sequence that begins with the state. -/
def word (st : List Word) (n : Nat) : Word := (after n st).getD 0 0

theorem next_length {st : List Word} (h : st.length = 624) : (next st).2.length = 624 := by
  simp [next, h]

theorem after_length {st : List Word} (h : st.length = 624) (n : Nat) : (after n st).length = 624 := by
  induction n generalizing st with
  | zero => exact h
  | succ n ih => exact ih (next_length h)

theorem after_add (m n : Nat) (st : List Word) : after (m + n) st = after n (after m st) := by
  induction m generalizing st with
  | zero => simp [after]
  | succ m ih => rw [Nat.succ_add]; exact ih _

theorem next_getD {st : List Word} (h : st.length = 624) {j : Nat} (hj : j < 623) :
    (next st).2.getD j 0 = st.getD (j + 1) 0 := by
  unfold next
  simp only
  cases st with
  | nil => simp at h
  | cons a l =>
    have hl : j < l.length := by simp at h; omega
    simp [List.getD_eq_getElem?_getD, List.getElem?_append, hl]

theorem next_last {st : List Word} (h : st.length = 624) : (next st).2.getD 623 0 = fresh st := by
  unfold next
  simp only
  simp [List.getD_eq_getElem?_getD, List.getElem?_append, h]

theorem after_getD {st : List Word} (h : st.length = 624) (j n : Nat) (hj : j < 624) :
    (after n st).getD j 0 = word st (n + j) := by
  induction j generalizing n with
  | zero => rfl
  | succ j ih =>
    rw [← next_getD (after_length h n) (by omega)]
    have : (next (after n st)).2 = after (n + 1) st := by rw [after_add]; rfl
    rw [this, ih (n + 1) (by omega)]
    congr 1
    omega

/-- The recurrence of the engine. -/
theorem word_rec {st : List Word} (h : st.length = 624) (n : Nat) :
    word st (n + 624) = word st (n + 397) ^^^ twist (join (word st n) (word st (n + 1))) := by
  have e : (next (after n st)).2 = after (n + 1) st := by rw [after_add]; rfl
  have a := after_getD h 623 (n + 1) (by omega)
  rw [← e, next_last (after_length h n)] at a
  rw [show n + 624 = n + 1 + 623 by omega, ← a]
  unfold fresh
  rw [after_getD h _ _ (by omega), after_getD h _ _ (by omega), after_getD h _ _ (by omega)]
  rfl

theorem words_getD {st : List Word} (h : st.length = 624) (N k : Nat) (hk : k < N) :
    (words N st).getD k 0 = temper (word st (k + 624)) := by
  induction N generalizing st k with
  | zero => omega
  | succ N ih =>
    cases k with
    | zero =>
      have := after_getD h 623 1 (by omega)
      rw [show after 1 st = (next st).2 from rfl, next_last h] at this
      rw [show 0 + 624 = 1 + 623 by omega, ← this]
      rfl
    | succ k =>
      have := ih (next_length h) k (by omega)
      rw [show words (N + 1) st = (next st).1 :: words N (next st).2 from rfl, List.getD_cons_succ, this]
      unfold word
      rw [show k + 1 + 624 = (k + 624) + 1 by omega]
      generalize k + 624 = m
      rfl

/-! ## Seeding -/

theorem seedWords_length (n i : Nat) (x : Word) : (seedWords n i x).length = n := by
  induction n generalizing i x with
  | zero => rfl
  | succ n ih => simp [seedWords, ih]

theorem seeded_length (s : Int) : (seeded s).length = 624 := seedWords_length _ _ _

theorem seeded_zero (s : Int) : word (seeded s) 0 = BitVec.ofInt 32 s := rfl

theorem seeded_one (s : Int) : word (seeded s) 1 = seedStep 1 (BitVec.ofInt 32 s) := by
  rw [← after_getD (seeded_length s) 1 0 (by omega)]
  rfl

/-- If nine outputs of two seeded engines agree, so do the seeds. -/
theorem seed_of_words {s t : Int} (h : words 399 (seeded s) = words 399 (seeded t)) :
    BitVec.ofInt 32 s = BitVec.ofInt 32 t := by
  have hs := seeded_length s
  have ht := seeded_length t
  have out : ∀ k, k < 399 → word (seeded s) (k + 624) = word (seeded t) (k + 624) := by
    intro k hk
    have := congrArg (fun l => l.getD k 0) h
    simp only [words_getD hs _ _ hk, words_getD ht _ _ hk] at this
    exact temper_inj this
  have join_of : ∀ n, word (seeded s) (n + 624) = word (seeded t) (n + 624) →
      word (seeded s) (n + 397) = word (seeded t) (n + 397) →
      join (word (seeded s) n) (word (seeded s) (n + 1)) = join (word (seeded t) n) (word (seeded t) (n + 1)) := by
    intro n a b
    rw [word_rec hs, word_rec ht, b] at a
    exact twist_inj (xor_left_inj a)
  have j396 := join_of 396 (out 396 (by omega)) (out 169 (by omega))
  have j397 := join_of 397 (out 397 (by omega)) (out 170 (by omega))
  have j398 := join_of 398 (out 398 (by omega)) (out 171 (by omega))
  have j0 := join_of 0 (out 0 (by omega)) (joined j396 j397)
  have j1 := join_of 1 (out 1 (by omega)) (joined j397 j398)
  have := joined j0 j1
  rw [show 0 + 1 = 1 from rfl, seeded_one, seeded_one] at this
  exact seedStep_inj this

/-- An `int` is determined by its 32 bits. -/
theorem int_of_bits {s t : Int} (hs : -2 ^ 31 ≤ s ∧ s < 2 ^ 31) (ht : -2 ^ 31 ≤ t ∧ t < 2 ^ 31)
    (h : BitVec.ofInt 32 s = BitVec.ofInt 32 t) : s = t := by
  have := congrArg BitVec.toInt h
  rw [BitVec.toInt_ofInt, BitVec.toInt_ofInt] at this
  rw [Int.bmod_def, Int.bmod_def] at this
  norm_num at this hs ht
  split_ifs at this <;> omega

end CGMF.Twist
