import Verif.Model.Fragments
import Verif.Tactics
import Mathlib.Algebra.Order.Field.Basic
import Mathlib.Algebra.Order.Group.Abs
import Mathlib.Algebra.Order.Archimedean.Basic

/-!
# C43: the sharing ends for level density parameters that vary slowly

Rising or falling: what counts is how much the parameters change per MeV compared with their size.  Readable from the statement with
`Frag.shareRT` (Model/Fragments.lean).
-/

namespace CGMF.Props

open CGMF CGMF.Frag

variable {K : Type} [Field K] [LinearOrder K] [IsStrictOrderedRing K]

/-- How much the share changes with one parameter. -/
theorem share_lip_left {A r2 a a' b : K} (hA : 0 < A) (hr : 0 < r2) (ha : A ≤ a) (ha' : A ≤ a') (hb : 0 < b) :
    |b / (a' * r2 + b) - b / (a * r2 + b)| ≤ |a' - a| / (4 * A) := by
  have d : 0 < a * r2 + b := by have := mul_pos (lt_of_lt_of_le hA ha) hr; linarith
  have d' : 0 < a' * r2 + b := by have := mul_pos (lt_of_lt_of_le hA ha') hr; linarith
  rw [div_sub_div _ _ d'.ne' d.ne', abs_div, abs_of_pos (mul_pos d' d), div_le_div_iff₀ (mul_pos d' d) (by linarith)]
  rw [show b * (a * r2 + b) - (a' * r2 + b) * b = (r2 * b) * (a - a') by ring, abs_mul, abs_of_pos (mul_pos hr hb), abs_sub_comm a a']
  have k1 : A * r2 ≤ a * r2 := mul_le_mul_of_nonneg_right ha hr.le
  have k2 : A * r2 ≤ a' * r2 := mul_le_mul_of_nonneg_right ha' hr.le
  have k0 : 0 < A * r2 := mul_pos hA hr
  have k3 : (A * r2 + b) * (A * r2 + b) ≤ (a' * r2 + b) * (a * r2 + b) := mul_le_mul (by linarith) (by linarith) (by linarith) d'.le
  have k4 : r2 * b * (4 * A) ≤ (a' * r2 + b) * (a * r2 + b) := by nlinarith [sq_nonneg (A * r2 - b)]
  calc r2 * b * |a' - a| * (4 * A) = |a' - a| * (r2 * b * (4 * A)) := by ring
    _ ≤ _ := mul_le_mul_of_nonneg_left k4 (abs_nonneg _)

theorem share_lip_right {B x b b' : K} (hB : 0 < B) (hx : 0 < x) (hb : B ≤ b) (hb' : B ≤ b') :
    |b' / (x + b') - b / (x + b)| ≤ |b' - b| / (4 * B) := by
  have d : 0 < x + b := by linarith
  have d' : 0 < x + b' := by linarith
  rw [div_sub_div _ _ d'.ne' d.ne', abs_div, abs_of_pos (mul_pos d' d), div_le_div_iff₀ (mul_pos d' d) (by linarith)]
  rw [show b' * (x + b) - (x + b') * b = x * (b' - b) by ring, abs_mul, abs_of_pos hx]
  have k3 : (x + B) * (x + B) ≤ (x + b') * (x + b) := mul_le_mul (by linarith) (by linarith) (by linarith) d'.le
  have k4 : x * (4 * B) ≤ (x + b') * (x + b) := by nlinarith [sq_nonneg (x - B)]
  calc x * |b' - b| * (4 * B) = |b' - b| * (x * (4 * B)) := by ring
    _ ≤ _ := mul_le_mul_of_nonneg_left k4 (abs_nonneg _)

theorem share_lip {A B rt a a' b b' : K} (hA : 0 < A) (hB : 0 < B) (hr : 0 < rt) (ha : A ≤ a) (ha' : A ≤ a') (hb : B ≤ b) (hb' : B ≤ b') :
    |b' / (a' * rt * rt + b') - b / (a * rt * rt + b)| ≤ |a' - a| / (4 * A) + |b' - b| / (4 * B) := by
  have r2 : 0 < rt * rt := mul_pos hr hr
  have k1 := share_lip_left hA r2 ha ha' (lt_of_lt_of_le hB hb')
  have k2 := share_lip_right (x := a * (rt * rt)) hB (mul_pos (lt_of_lt_of_le hA ha) r2) hb hb'
  rw [mul_assoc, mul_assoc]
  calc |b' / (a' * (rt * rt) + b') - b / (a * (rt * rt) + b)|
      = |(b' / (a' * (rt * rt) + b') - b' / (a * (rt * rt) + b')) + (b' / (a * (rt * rt) + b') - b / (a * (rt * rt) + b))| := by congr 1; ring
    _ ≤ _ := abs_add_le _ _
    _ ≤ _ := add_le_add k1 k2

/-- Level density parameters of one fragment up to the energy `txe`: given by `f`, at least `A`, changing by at most `κ A` per MeV. -/
structure Slow (ldp : K → Res K) (f : K → K) (txe A κ : K) : Prop where
  val : ∀ x, 0 ≤ x → x ≤ txe → ldp x = .ok (f x)
  low : ∀ x, 0 ≤ x → x ≤ txe → A ≤ f x
  slope : ∀ x y, 0 ≤ x → x ≤ txe → 0 ≤ y → y ≤ txe → |f x - f y| ≤ κ * A * |x - y|

section
variable {ldpl ldph : K → Res K} {f g : K → K} {rt txe tol A B κ : K}

theorem slow_loop (hr : 0 < rt) (ht : 0 < txe) (hA : 0 < A) (hB : 0 < B) (hκ : 0 ≤ κ) (F : Slow ldpl f txe A κ) (G : Slow ldph g txe B κ) :
    ∀ (n : Nat) (e d : K), 0 ≤ e → e ≤ txe →
      |txe - g (txe - e) / (f e * rt * rt + g (txe - e)) * txe - e| ≤ d → κ * A * (d * (txe * κ / 2) ^ n) ≤ tol →
      ∃ u, shareLoop ldpl ldph rt txe tol (n + 1) (f e) (g (txe - e)) = .ok u := by
  have share : ∀ a b : K, A ≤ a → B ≤ b → 0 < a * rt * rt + b ∧ 0 ≤ b / (a * rt * rt + b) * txe ∧ b / (a * rt * rt + b) * txe ≤ txe := by
    intro a b ha hb
    have p : 0 < a * rt * rt := mul_pos (mul_pos (lt_of_lt_of_le hA ha) hr) hr
    have q : 0 < b := lt_of_lt_of_le hB hb
    refine ⟨by linarith, mul_nonneg (div_nonneg q.le (by linarith)) ht.le, ?_⟩
    have : b / (a * rt * rt + b) ≤ 1 := (div_le_one (by linarith)).2 (by linarith)
    calc b / (a * rt * rt + b) * txe ≤ 1 * txe := mul_le_mul_of_nonneg_right this ht.le
      _ = txe := one_mul _
  intro n
  induction n with
  | zero =>
    intro e d e0 e1 hd htol
    obtain ⟨s0, s1, s2⟩ := share (f e) (g (txe - e)) (F.low _ e0 e1) (G.low _ (by linarith) (by linarith))
    rw [shareLoop, if_neg s0.ne']
    simp only
    generalize hg : g (txe - e) / (f e * rt * rt + g (txe - e)) * txe = eh at *
    rw [F.val _ (by linarith) (by linarith), G.val _ s1 s2]
    simp only
    rw [if_neg]
    · exact ⟨_, rfl⟩
    · rw [not_lt]
      refine (F.slope _ _ (by linarith) (by linarith) e0 e1).trans (le_trans ?_ htol)
      rw [pow_zero, mul_one]
      exact mul_le_mul_of_nonneg_left hd (mul_nonneg hκ hA.le)
  | succ n ih =>
    intro e d e0 e1 hd htol
    have gl := G.low (txe - e) (by linarith) (by linarith)
    obtain ⟨s0, s1, s2⟩ := share (f e) (g (txe - e)) (F.low _ e0 e1) gl
    rw [shareLoop, if_neg s0.ne']
    simp only
    generalize hg : g (txe - e) / (f e * rt * rt + g (txe - e)) * txe = eh at *
    have l0 : 0 ≤ txe - eh := by linarith
    have l1 : txe - eh ≤ txe := by linarith
    rw [F.val _ l0 l1, G.val _ s1 s2]
    simp only
    split_ifs with hs
    · have e2 : txe - (txe - eh) = eh := by ring
      have := ih (txe - eh) (d * (txe * κ / 2)) l0 l1 (by
        rw [e2]
        have k := share_lip hA hB hr (F.low _ e0 e1) (F.low _ l0 l1) gl (G.low _ s1 s2)
        have j1 := F.slope _ _ l0 l1 e0 e1
        have j2 := G.slope _ _ s1 s2 (by linarith : 0 ≤ txe - e) (by linarith)
        rw [show eh - (txe - e) = -(txe - eh - e) by ring, abs_neg] at j2
        have m1 : |f (txe - eh) - f e| / (4 * A) ≤ κ * d / 4 := by
          rw [div_le_iff₀ (by linarith)]
          refine j1.trans (le_trans (mul_le_mul_of_nonneg_left hd (mul_nonneg hκ hA.le)) (le_of_eq ?_))
          ring
        have m2 : |g eh - g (txe - e)| / (4 * B) ≤ κ * d / 4 := by
          rw [div_le_iff₀ (by linarith)]
          refine j2.trans (le_trans (mul_le_mul_of_nonneg_left hd (mul_nonneg hκ hB.le)) (le_of_eq ?_))
          ring
        have m3 := mul_le_mul_of_nonneg_right (k.trans (add_le_add m1 m2)) ht.le
        rw [← abs_of_pos ht, ← abs_mul, abs_of_pos ht, sub_mul, hg] at m3
        rw [show txe - g eh / (f (txe - eh) * rt * rt + g eh) * txe - (txe - eh) =
          -(g eh / (f (txe - eh) * rt * rt + g eh) * txe - eh) by ring, abs_neg]
        refine m3.trans (le_of_eq ?_)
        ring) (by
        refine le_trans (le_of_eq ?_) htol
        rw [pow_succ]; ring)
      rw [e2] at this
      exact this
    · exact ⟨_, rfl⟩

/-- **C43**, partial (rising or falling tables).  When the level density parameters of the two fragments change by at most `κ` times their
least value per MeV, the iteration ends as soon as `κ A txe (κ txe / 2)^n ≤ tol`; for `κ txe < 2` there is such an `n`.  What is missing
is termination for every pair of tables, which is false (`C43_not_terminating`). -/
theorem C43_slopes_partial (hr : 0 < rt) (ht : 0 < txe) (hA : 0 < A) (hB : 0 < B) (hκ : 0 ≤ κ) (F : Slow ldpl f txe A κ)
    (G : Slow ldph g txe B κ) (n : Nat) (hn : κ * A * (txe * (txe * κ / 2) ^ n) ≤ tol) :
    ∃ u, shareRT ldpl ldph rt txe tol (n + 1) = .ok u := by
  have x0 : 0 ≤ txe / 2 := by linarith
  have x1 : txe / 2 ≤ txe := by linarith
  have x2 : txe - txe / 2 = txe / 2 := by ring
  unfold shareRT
  rw [F.val _ x0 x1, G.val _ x0 x1]
  simp only
  have := slow_loop (tol := tol) hr ht hA hB hκ F G n (txe / 2) txe x0 x1 (by
    rw [x2]
    have a := F.low _ x0 x1
    have b := G.low _ x0 x1
    have p : 0 < f (txe / 2) * rt * rt := mul_pos (mul_pos (lt_of_lt_of_le hA a) hr) hr
    have q : 0 < g (txe / 2) := lt_of_lt_of_le hB b
    have r : g (txe / 2) / (f (txe / 2) * rt * rt + g (txe / 2)) ≤ 1 := (div_le_one (by linarith)).2 (by linarith)
    have r0 : 0 ≤ g (txe / 2) / (f (txe / 2) * rt * rt + g (txe / 2)) := div_nonneg q.le (by linarith)
    have r' := mul_le_mul_of_nonneg_right r ht.le
    have r0' := mul_nonneg r0 ht.le
    rw [abs_le]
    constructor <;> linarith) hn
  rw [x2] at this
  exact this

/-- **C43**, partial: with `κ txe < 2` the iteration ends, whatever the tolerance above zero. -/
theorem C43_slopes_end_partial [Archimedean K] (hr : 0 < rt) (ht : 0 < txe) (hA : 0 < A) (hB : 0 < B) (hκ : 0 ≤ κ) (htol : 0 < tol)
    (hs : κ * txe < 2) (F : Slow ldpl f txe A κ) (G : Slow ldph g txe B κ) : ∃ n u, shareRT ldpl ldph rt txe tol n = .ok u := by
  have c : 0 ≤ κ * A * txe := mul_nonneg (mul_nonneg hκ hA.le) ht.le
  have q0 : 0 ≤ txe * κ / 2 := div_nonneg (mul_nonneg ht.le hκ) (by norm_num)
  have q1 : txe * κ / 2 < 1 := by rw [div_lt_one (by norm_num), mul_comm]; exact hs
  obtain ⟨n, hn⟩ := exists_pow_lt_of_lt_one (show 0 < tol / (κ * A * txe + 1) from div_pos htol (by linarith)) q1
  refine ⟨n + 1, C43_slopes_partial hr ht hA hB hκ F G n ?_⟩
  rw [lt_div_iff₀ (by linarith)] at hn
  have := pow_nonneg q0 n
  rw [← mul_assoc]
  nlinarith

end

/-- The hypotheses with parameters of which one rises and one falls: 10 to 12 and 8 to 7 over 20 MeV. -/
example : ∃ u, shareRT (fun x : ℚ => .ok (10 + x / 10)) (fun x => .ok (8 - x / 20)) (6 / 5) 20 (1 / 100) 5 = .ok u :=
  C43_slopes_partial (f := fun x => 10 + x / 10) (g := fun x => 8 - x / 20) (A := 10) (B := 7) (κ := 1 / 100) (by norm_num) (by norm_num)
    (by norm_num) (by norm_num) (by norm_num)
    ⟨fun _ _ _ => rfl, fun x h _ => by linarith, fun x y _ _ _ _ => by
      rw [show 10 + x / 10 - (10 + y / 10) = 1 / 10 * (x - y) by ring, abs_mul]; norm_num⟩
    ⟨fun _ _ _ => rfl, fun x _ h => by linarith, fun x y _ _ _ _ => by
      rw [show 8 - x / 20 - (8 - y / 20) = -(1 / 20) * (x - y) by ring, abs_mul]
      norm_num
      exact mul_le_mul_of_nonneg_right (by norm_num) (abs_nonneg _)⟩ 4 (by norm_num)

end CGMF.Props
