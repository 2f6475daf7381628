import Verif.Tactics
import Verif.Spec.Driver

/-! Helper lemmas for the driver: accumulators as list sums. -/

set_option linter.unusedSectionVars false
set_option linter.unusedSimpArgs false

namespace CGMF.Driver

open CGMF.Spec

variable {K : Type _} [Field K] [LinearOrder K]

theorem accumulate_list : ∀ (ys post : List K) (pre : List K) (acc : K),
    accumulate (showList (pre ++ ys ++ post)) ys.length (pre.length : Int) acc = acc + ys.sum := by
  intro ys
  induction ys with
  | nil => intro post pre acc; simp [accumulate]
  | cons y ys ih =>
    intro post pre acc
    simp only [List.length_cons, accumulate]
    have hget : showList (pre ++ y :: ys ++ post) (pre.length : Int) = y := by
      unfold showList
      rw [dif_pos (by simp; omega)]
      simp
    rw [hget]
    have := ih post (pre ++ [y]) (acc + y)
    simp only [List.append_assoc, List.cons_append, List.nil_append, List.length_append,
      List.length_cons, List.length_nil] at this ⊢
    push_cast at this ⊢
    rw [this, List.sum_cons]
    ring

/-- The accumulators as sums over the list of events. -/
def totals (evs : List (Content K)) : Sums K :=
  { aL := (evs.map (·.aL)).sum, aH := (evs.map (·.aH)).sum,
    zL := (evs.map (·.zL)).sum, zH := (evs.map (·.zH)).sum,
    nuL := (evs.map (fun e => (e.lightNeutrons.length : Int))).sum,
    nuH := (evs.map (fun e => (e.heavyNeutrons.length : Int))).sum,
    nuPre := (evs.map (fun e => (e.preNeutrons.length : Int))).sum,
    nuTot := (evs.map (fun e => (e.lightNeutrons.length : Int))).sum
      + (evs.map (fun e => (e.heavyNeutrons.length : Int))).sum
      + (evs.map (fun e => (e.preNeutrons.length : Int))).sum,
    nugL := (evs.map (fun e => (e.lightPhotons.length : Int))).sum,
    nugH := (evs.map (fun e => (e.heavyPhotons.length : Int))).sum,
    nugTot := (evs.map (fun e => (e.lightPhotons.length : Int))).sum
      + (evs.map (fun e => (e.heavyPhotons.length : Int))).sum,
    keL := (evs.map (·.keL)).sum, keH := (evs.map (·.keH)).sum,
    tke := (evs.map (·.keL)).sum + (evs.map (·.keH)).sum,
    xeL := (evs.map (·.xeL)).sum, xeH := (evs.map (·.xeH)).sum,
    txe := (evs.map (·.xeL)).sum + (evs.map (·.xeH)).sum,
    jL := (evs.map (·.jL)).sum, jH := (evs.map (·.jH)).sum,
    j := ((evs.map (·.jL)).sum + (evs.map (·.jH)).sum) / 2,
    ecmL := (evs.map (fun e => (e.lightNeutrons.map Prod.fst).sum)).sum,
    ecmH := (evs.map (fun e => (e.heavyNeutrons.map Prod.fst).sum)).sum,
    elabL := (evs.map (fun e => (e.lightNeutrons.map Prod.snd).sum)).sum,
    elabH := (evs.map (fun e => (e.heavyNeutrons.map Prod.snd).sum)).sum,
    enPre := (evs.map (fun e => e.preNeutrons.sum)).sum,
    ecm := (evs.map (fun e => (e.lightNeutrons.map Prod.fst).sum)).sum
      + (evs.map (fun e => (e.heavyNeutrons.map Prod.fst).sum)).sum
      + (evs.map (fun e => e.preNeutrons.sum)).sum,
    eLab := (evs.map (fun e => (e.lightNeutrons.map Prod.snd).sum)).sum
      + (evs.map (fun e => (e.heavyNeutrons.map Prod.snd).sum)).sum
      + (evs.map (fun e => e.preNeutrons.sum)).sum,
    egL := (evs.map (fun e => e.lightPhotons.sum)).sum,
    egH := (evs.map (fun e => e.heavyPhotons.sum)).sum,
    eg := (evs.map (fun e => e.lightPhotons.sum)).sum
      + (evs.map (fun e => e.heavyPhotons.sum)).sum }

theorem recordEvent_totals (pre : List (Content K)) (e : Content K) :
    recordEvent (totals pre) e.view = totals (pre ++ [e]) := by
  have hcmL : ∀ acc, accumulate e.view.cmN e.view.nuL 0 acc
      = acc + (e.lightNeutrons.map Prod.fst).sum := by
    intro acc
    have := accumulate_list (e.lightNeutrons.map Prod.fst) (e.heavyNeutrons.map Prod.fst) [] acc
    simpa [Content.view] using this
  have hlabL : ∀ acc, accumulate e.view.labN e.view.nuL 0 acc
      = acc + (e.lightNeutrons.map Prod.snd).sum := by
    intro acc
    have := accumulate_list (e.lightNeutrons.map Prod.snd) (e.heavyNeutrons.map Prod.snd) [] acc
    simpa [Content.view] using this
  have hcmH : ∀ acc, accumulate e.view.cmN e.view.nuH e.view.nuL acc
      = acc + (e.heavyNeutrons.map Prod.fst).sum := by
    intro acc
    have := accumulate_list (e.heavyNeutrons.map Prod.fst) [] (e.lightNeutrons.map Prod.fst) acc
    simpa [Content.view] using this
  have hlabH : ∀ acc, accumulate e.view.labN e.view.nuH e.view.nuL acc
      = acc + (e.heavyNeutrons.map Prod.snd).sum := by
    intro acc
    have := accumulate_list (e.heavyNeutrons.map Prod.snd) [] (e.lightNeutrons.map Prod.snd) acc
    simpa [Content.view] using this
  have hpre : ∀ acc, accumulate e.view.preN e.view.nuPre 0 acc = acc + e.preNeutrons.sum := by
    intro acc
    have := accumulate_list e.preNeutrons [] [] acc
    simpa [Content.view] using this
  have hgL : ∀ acc, accumulate e.view.phE e.view.nugL 0 acc = acc + e.lightPhotons.sum := by
    intro acc
    have := accumulate_list e.lightPhotons e.heavyPhotons [] acc
    simpa [Content.view] using this
  have hgH : ∀ acc, accumulate e.view.phE e.view.nugH e.view.nugL acc
      = acc + e.heavyPhotons.sum := by
    intro acc
    have := accumulate_list e.heavyPhotons [] e.lightPhotons acc
    simpa [Content.view] using this
  unfold recordEvent
  simp only [hcmL, hlabL, hcmH, hlabH, hpre, hgL, hgH]
  simp only [totals, List.map_append, List.map_cons, List.map_nil, List.sum_append, List.sum_cons,
    List.sum_nil, add_zero, Content.view]

theorem foldl_totals (evs : List (Content K)) :
    (evs.map Content.view).foldl recordEvent Sums.zero = totals evs := by
  have gen : ∀ (evs pre : List (Content K)),
      (evs.map Content.view).foldl recordEvent (totals pre) = totals (pre ++ evs) := by
    intro evs
    induction evs with
    | nil => intro pre; simp
    | cons e es ih =>
      intro pre
      simp only [List.map_cons, List.foldl_cons, recordEvent_totals, ih]
      simp
  have h0 : (Sums.zero : Sums K) = totals [] := by simp [totals, Sums.zero]
  rw [h0, gen]; simp

theorem totals_append (a b : List (Content K)) :
    (totals a).add (totals b) = totals (a ++ b) := by
  simp only [totals, Sums.add, List.map_append, List.sum_append, Sums.mk.injEq, true_and, and_true]
  refine ⟨?_, ?_, ?_, ?_, ?_, ?_, ?_, ?_⟩ <;> ring

theorem reduce_totals (ranks : List (List (Content K))) :
    reduce (ranks.map totals) = totals ranks.flatten := by
  induction ranks with
  | nil => simp [reduce, totals, Sums.zero]
  | cons r rs ih =>
    have : reduce ((r :: rs).map totals) = (totals r).add (reduce (rs.map totals)) := rfl
    rw [this, ih, totals_append]; simp

theorem atLeastOne_cast (n : Nat) : (atLeastOne (n : Int) : K) = ((max n 1 : Nat) : K) := by
  unfold atLeastOne
  norm_cast

theorem sum_map_len (evs : List (Content K)) {α : Type _} (f : Content K → List α) :
    (evs.map (fun e => ((f e).length : Int))).sum = ((evs.flatMap f).length : Int) := by
  induction evs with
  | nil => simp
  | cons e es ih => simp [ih]

theorem sum_map_sum (evs : List (Content K)) (f : Content K → List K) :
    (evs.map (fun e => (f e).sum)).sum = (evs.flatMap f).sum := by
  induction evs with
  | nil => simp
  | cons e es ih => simp [ih]

theorem cast_sum (evs : List (Content K)) (f : Content K → Int) :
    (((evs.map f).sum : Int) : K) = (evs.map (fun e => (f e : K))).sum := by
  induction evs with
  | nil => simp
  | cons e es ih => simp [ih]

theorem sum_add (evs : List (Content K)) (f g : Content K → K) :
    (evs.map f).sum + (evs.map g).sum = (evs.map (fun e => f e + g e)).sum := by
  induction evs with
  | nil => simp
  | cons e es ih => simp [← ih]; ring

theorem sum_div (evs : List (Content K)) (f : Content K → K) (c : K) :
    (evs.map f).sum / c = (evs.map (fun e => f e / c)).sum := by
  induction evs with
  | nil => simp
  | cons e es ih => simp [← ih]; ring

theorem perParticle_eq (evs : List (Content K)) (f : Content K → List K) (s : K) (n : Int)
    (hs : s = (evs.map (fun e => (f e).sum)).sum)
    (hn : n = (evs.map (fun e => ((f e).length : Int))).sum) :
    s / atLeastOne n = perParticle evs f := by
  subst hs; subst hn
  rw [sum_map_len, atLeastOne_cast, sum_map_sum]; rfl

end CGMF.Driver
