import Verif.Tactics
import Verif.Model.Event

/-! Helper lemmas for the event assembly loops. -/

namespace CGMF.Event

variable {K : Type _} [Field K] [LinearOrder K]

theorem readAt_nat {α} (xs : List α) (i : Nat) (h : i < xs.length) :
    readAt xs (i : Int) = .ok xs[i] := by
  simp [readAt, h]

theorem readAt_nat_none {α} (xs : List α) (i : Nat) (h : xs.length ≤ i) :
    readAt xs (i : Int) = .ub := by
  simp [readAt, h]

theorem writeAt_nat {α} (xs : List α) (i : Nat) (v : α) (h : i < xs.length) :
    writeAt xs (i : Int) v = .ok (xs.set i v) := by
  simp [writeAt, h]

/-- Copy loop into an array that already has `pre` written in front and room behind. -/
theorem copy_loop {α β} (src : List α) (g : α → β) (off : Nat) :
    ∀ (n i0 : Nat) (pre : List (Option β)) (room : Nat),
      i0 + n ≤ src.length → pre.length = off + i0 →
      forUp (fun i (arr : List (Option β)) => do
          let x ← readAt src (i : Int)
          writeAt arr ((i : Int) + off) (some (g x))) i0 n
        (pre ++ List.replicate (n + room) none)
        = .ok (pre ++ ((src.drop i0).take n).map (fun x => some (g x))
                ++ List.replicate room none) := by
  intro n
  induction n with
  | zero => intro i0 pre room _ _; simp [forUp]
  | succ n ih =>
    intro i0 pre room hlen hpre
    have hi : i0 < src.length := by omega
    have hw : (i0 : Int) + off = ((off + i0 : Nat) : Int) := by push_cast; ring
    simp only [forUp, readAt_nat src i0 hi, Res.bind_ok]
    rw [hw, writeAt_nat _ _ _ (by simp; omega)]
    simp only [Res.bind_ok]
    have hset : (pre ++ List.replicate (n + 1 + room) none).set (off + i0) (some (g src[i0]))
        = (pre ++ [some (g src[i0])]) ++ List.replicate (n + room) none := by
      rw [← hpre, List.set_append_right _ _ (le_refl _)]
      simp [show n + 1 + room = (n + room) + 1 by omega, List.replicate_succ]
    rw [hset, ih (i0 + 1) (pre ++ [some (g src[i0])]) room (by omega) (by simp; omega)]
    have hdrop : (src.drop i0).take (n + 1) = src[i0] :: (src.drop (i0 + 1)).take n := by
      rw [List.drop_eq_getElem_cons hi, List.take_succ_cons]
    simp [hdrop]

/-- Copy loop at offset zero. -/
theorem copy_loop0 {α β} (src : List α) (g : α → β) (n room : Nat) (h : n ≤ src.length) :
    forUp (fun i (arr : List (Option β)) => do
        let x ← readAt src (i : Int)
        writeAt arr (i : Int) (some (g x))) 0 n (List.replicate (n + room) none)
      = .ok ((src.take n).map (fun x => some (g x)) ++ List.replicate room none) := by
  have := copy_loop src g 0 n 0 [] room (by omega) (by simp)
  simpa using this

theorem assembleCol_ok (f : K → K) (nL nH : Nat) (lf hf : List K)
    (hL : nL ≤ lf.length) (hH : nH ≤ hf.length) :
    assembleCol f nL nH lf hf
      = .ok ((lf.take nL ++ hf.take nH).map (fun x => some (f x))) := by
  unfold assembleCol alloc
  rw [copy_loop0 lf f nL nH hL]
  simp only [Res.bind_ok]
  have h1 : nH = nH + 0 := rfl
  have := copy_loop hf f nL nH 0 ((lf.take nL).map (fun x => some (f x))) 0 (by omega)
    (by simp; omega)
  simp only [Nat.add_zero] at this
  rw [this]
  simp

theorem preCol_ok (g : PreNeutron K → K) (pfn : List (PreNeutron K)) (n : Nat)
    (h : n ≤ pfn.length) :
    preCol g pfn n = .ok ((pfn.take n).map (fun x => some (g x))) := by
  unfold preCol alloc
  have := copy_loop0 pfn g n 0 h
  simp only [Nat.add_zero] at this
  rw [this]; simp

theorem getter_map {α} (nu : Nat) (xs : List α) (f : α → K) (hlen : xs.length = nu) (i : Int) :
    getter nu (xs.map (fun x => some (f x))) i
      = .ok (if h : 0 ≤ i ∧ i < nu then f (xs[i.toNat]'(by omega)) else -1) := by
  unfold getter
  by_cases h : 0 ≤ i ∧ i < nu
  · have hi : i.toNat < xs.length := by omega
    simp only [ge_iff_le, h, and_self, if_true, dif_pos]
    simp [readAt, h.1, hi]
  · simp only [ge_iff_le, h, if_false, dif_neg, not_false_eq_true]

end CGMF.Event
