import Verif.Proofs.Exchange
import Verif.Proofs.Directions
import Verif.Spec.Select
import Verif.Proofs.Select

/-! # Law of the forced transition -/

namespace CGMF.HF

open MeasureTheory CGMF.Law CGMF.MC

theorem local_pick (p j : Int) : ∀ (ls : List (Level ℝ)) (i : Nat) (xpr : ℝ) (best : Option Nat),
    Local (pickE1 p j ls i xpr best) := by
  intro ls
  induction ls with
  | nil => intro i xpr best; exact local_pure _
  | cons l ls ih =>
    intro i xpr best
    unfold pickE1
    split
    · refine local_bind CGMF.Isotropy.local_draw fun x => ?_
      split
      · exact ih _ _ _
      · exact ih _ _ _
    · exact ih _ _ _

theorem local_get' {α : Type} (o : Option α) : Local (Rnd.get o : Rnd ℝ α) := by
  intro s a s' h
  obtain ⟨h1, h2⟩ := Rnd.get_ok.mp h
  subst h2
  exact ⟨[], rfl, fun t => Rnd.get_ok.mpr ⟨h1, rfl⟩⟩

theorem local_forced (levels : List (Level ℝ)) (p j : Int) : Local (forced levels p j) := by
  unfold forced
  refine local_bind (local_pick _ _ _ _ _ _) fun b => ?_
  cases b with
  | some i => exact local_pure _
  | none => exact local_get' _

/-- What the draws decide. -/
theorem pick_run (p j : Int) : ∀ (ls : List (Level ℝ)) (i : Nat) (xpr : ℝ) (best : Option Nat) (ω : ℕ → ℝ),
    ∃ res, pickE1 p j ls i xpr best (pre ω (ls.countP fun l => e1Candidate l p j)) = .ok (res, []) ∧
      ((∀ k < ls.countP fun l => e1Candidate l p j, ω k ≤ xpr) → res = best) ∧
      ∀ d l, ls[d]? = some l → e1Candidate l p j = true →
        xpr < ω ((ls.take d).countP fun l => e1Candidate l p j) →
        ω ∈ Largest (ls.countP fun l => e1Candidate l p j) ((ls.take d).countP fun l => e1Candidate l p j) →
        res = some (i + d) := by
  intro ls
  induction ls with
  | nil =>
    intro i xpr best ω
    exact ⟨best, rfl, fun _ => rfl, fun d l h => by simp at h⟩
  | cons l ls ih =>
    intro i xpr best ω
    by_cases hc : e1Candidate l p j = true
    · have hcount : (l :: ls).countP (fun l => e1Candidate l p j) = ls.countP (fun l => e1Candidate l p j) + 1 := by
        rw [List.countP_cons, if_pos hc]
      set n := ls.countP (fun l => e1Candidate l p j) with hn
      rw [hcount]
      have hrun : ∀ s, pickE1 p j (l :: ls) i xpr best (ω 0 :: s) =
          if xpr < ω 0 then pickE1 p j ls (i + 1) (ω 0) (some i) s else pickE1 p j ls (i + 1) xpr best s := by
        intro s
        rw [pickE1, if_pos hc, Rnd.bind_run, Rnd.draw_cons]
        dsimp only
        split <;> rfl
      have hpre : pre ω (n + 1) = ω 0 :: pre (shift 1 ω) n := by
        rw [show n + 1 = 1 + n by omega, pre_add]; rfl
      rw [hpre, hrun]
      have hsh : ∀ k, shift 1 ω k = ω (k + 1) := fun k => by unfold shift; congr 1; omega
      by_cases hx : xpr < ω 0
      · rw [if_pos hx]
        obtain ⟨res, h1, h2, h3⟩ := ih (i + 1) (ω 0) (some i) (shift 1 ω)
        refine ⟨res, h1, fun h => absurd (h 0 (by omega)) (not_le.mpr hx), ?_⟩
        intro d l' hl' hc' hlt hL
        cases d with
        | zero =>
          rw [h2]
          · rfl
          · intro k hk
            rw [hsh]
            have := hL (k + 1) (by omega) (by simp)
            simpa using this.le
        | succ d =>
          have htake : ((l :: ls).take (d + 1)).countP (fun l => e1Candidate l p j) =
              (ls.take d).countP (fun l => e1Candidate l p j) + 1 := by
            rw [List.take_succ_cons, List.countP_cons, if_pos hc]
          rw [htake] at hlt hL
          rw [h3 d l' (by simpa using hl') hc' (by rw [hsh]; exact hL 0 (by omega) (by omega)) (fun k hk hki => by
            rw [hsh, hsh]; exact hL (k + 1) (by omega) (by omega))]
          congr 1
          omega
      · rw [if_neg hx]
        obtain ⟨res, h1, h2, h3⟩ := ih (i + 1) xpr best (shift 1 ω)
        refine ⟨res, h1, fun h => h2 fun k hk => by rw [hsh]; exact h _ (by omega), ?_⟩
        intro d l' hl' hc' hlt hL
        cases d with
        | zero => exact absurd (by simpa using hlt) hx
        | succ d =>
          have htake : ((l :: ls).take (d + 1)).countP (fun l => e1Candidate l p j) =
              (ls.take d).countP (fun l => e1Candidate l p j) + 1 := by
            rw [List.take_succ_cons, List.countP_cons, if_pos hc]
          rw [htake] at hlt hL
          rw [h3 d l' (by simpa using hl') hc' (by rw [hsh]; exact hlt) (fun k hk hki => by
            rw [hsh, hsh]; exact hL (k + 1) (by omega) (by omega))]
          congr 1
          omega
    · have hcount : (l :: ls).countP (fun l => e1Candidate l p j) = ls.countP (fun l => e1Candidate l p j) := by
        rw [List.countP_cons, if_neg hc, add_zero]
      rw [hcount]
      obtain ⟨res, h1, h2, h3⟩ := ih (i + 1) xpr best ω
      refine ⟨res, by rw [pickE1, if_neg hc]; exact h1, h2, ?_⟩
      intro d l' hl' hc' hlt hL
      cases d with
      | zero => simp at hl'; subst hl'; exact absurd hc' hc
      | succ d =>
        have htake : ((l :: ls).take (d + 1)).countP (fun l => e1Candidate l p j) =
            (ls.take d).countP (fun l => e1Candidate l p j) := by
          rw [List.take_succ_cons, List.countP_cons, if_neg hc, add_zero]
        rw [htake] at hlt hL
        rw [h3 d l' (by simpa using hl') hc' hlt hL]
        congr 1
        omega

theorem rank_lt {α : Type} (P : α → Bool) {ls : List α} {d : Nat} {l : α} (hd : ls[d]? = some l) (hP : P l = true) :
    (ls.take d).countP P < ls.countP P := by
  obtain ⟨hlt, he⟩ := List.getElem?_eq_some_iff.mp hd
  conv_rhs => rw [← List.take_append_drop d ls, List.countP_append, List.drop_eq_getElem_cons hlt, he,
    List.countP_cons_of_pos hP]
  omega

theorem rank_exists {α : Type} (P : α → Bool) : ∀ (ls : List α) (k : Nat), k < ls.countP P →
    ∃ d l, ls[d]? = some l ∧ P l = true ∧ (ls.take d).countP P = k := by
  intro ls
  induction ls with
  | nil => intro k h; simp at h
  | cons l ls ih =>
    intro k hk
    by_cases hP : P l = true
    · rw [List.countP_cons_of_pos hP] at hk
      cases k with
      | zero => exact ⟨0, l, rfl, hP, rfl⟩
      | succ k =>
        obtain ⟨d, l', h1, h2, h3⟩ := ih k (by omega)
        exact ⟨d + 1, l', by simpa using h1, h2, by rw [List.take_succ_cons, List.countP_cons_of_pos hP, h3]⟩
    · rw [List.countP_cons_of_neg hP] at hk
      obtain ⟨d, l', h1, h2, h3⟩ := ih k hk
      exact ⟨d + 1, l', by simpa using h1, h2, by rw [List.take_succ_cons, List.countP_cons_of_neg hP, h3]⟩

theorem rank_inj {α : Type} (P : α → Bool) {ls : List α} {d d' : Nat} {l l' : α} (h1 : ls[d]? = some l) (h2 : P l = true)
    (h3 : ls[d']? = some l') (h4 : P l' = true) (h : (ls.take d).countP P = (ls.take d').countP P) : d = d' := by
  have key : ∀ {a b : Nat} {x : α}, ls[a]? = some x → P x = true → a < b → (ls.take a).countP P < (ls.take b).countP P := by
    intro a b x ha hx hab
    have := rank_lt P (ls := ls.take b) (d := a) (l := x) (by rw [List.getElem?_take, if_pos hab]; exact ha) hx
    rwa [List.take_take, min_eq_left hab.le] at this
  rcases lt_trichotomy d d' with hlt | heq | hgt
  · have := key h1 h2 hlt; omega
  · exact heq
  · have := key h3 h4 hgt; omega

/-- Numbers strictly between 0 and 1, all different. -/
def Generic (ω : ℕ → ℝ) : Prop := (∀ i, 0 < ω i ∧ ω i < 1) ∧ ∀ i j : Nat, i ≠ j → ω i ≠ ω j

/-- A forced transition with preferred levels, for generic random numbers: the level of the largest number. -/
theorem forced_generic (levels : List (Level ℝ)) (p j : Int) {n : Nat} (hn : n = levels.countP fun l => e1Candidate l p j)
    (h0 : 0 < n) {ω : ℕ → ℝ} (hω : Generic ω) (i : Nat) :
    (∃ m, forced levels p j (pre ω m) = .ok (i, [])) ↔
      ∃ l, levels[i]? = some l ∧ e1Candidate l p j = true ∧ ω ∈ Largest n ((levels.take i).countP fun l => e1Candidate l p j) := by
  obtain ⟨k, hk, hL⟩ := some_largest h0 hω.2
  obtain ⟨d, l, h1, h2, h3⟩ := rank_exists (fun l => e1Candidate l p j) levels k (by omega)
  obtain ⟨res, r1, _, r3⟩ := pick_run p j levels 0 (-1) none ω
  have hres := r3 d l h1 h2 (by have := (hω.1 ((levels.take d).countP fun l => e1Candidate l p j)).1; linarith) (by
    rw [h3, ← hn]; exact hL)
  rw [hres, zero_add] at r1
  have hf : forced levels p j (pre ω n) = .ok (d, []) := by
    rw [hn]
    unfold forced
    rw [Rnd.bind_of_ok r1]
    rfl
  constructor
  · rintro ⟨m, hm⟩
    obtain ⟨rfl, _⟩ := at_unique (local_forced levels p j) (ω := ω) (m := m) (n := n) hm hf
    exact ⟨l, h1, h2, by rw [h3]; exact hL⟩
  · rintro ⟨l', g1, g2, g3⟩
    have : k = (levels.take i).countP fun l => e1Candidate l p j := by
      by_contra hne
      have hi := rank_lt (fun l => e1Candidate l p j) g1 g2
      have a := hL ((levels.take i).countP fun l => e1Candidate l p j) (by omega) (Ne.symm hne)
      have b := g3 k (by omega) hne
      exact absurd a (not_lt.mpr b.le)
    rw [this] at h3
    rw [rank_inj (fun l => e1Candidate l p j) g1 g2 h1 h2 h3.symm]
    exact ⟨n, hf⟩

end CGMF.HF
