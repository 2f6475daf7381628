import Verif.Proofs.Prefission
import Verif.Proofs.Sound
import Verif.Spec.Prefission

/-! # Energies of the pre-fission neutrons: proofs -/

set_option linter.unusedSectionVars false

namespace CGMF.Pre

open CGMF.Spec

variable {K : Type} [Field K] [LinearOrder K] [IsStrictOrderedRing K] [FloorRing K]

theorem maxSpec_total (sp : List K) : ∀ (m : Nat) (lo : Int) (mx : K), 0 ≤ lo → lo + m ≤ sp.length →
    ∃ v, maxSpec sp lo m mx = .ok v := by
  intro m
  induction m with
  | zero => intro lo mx _ _; exact ⟨mx, rfl⟩
  | succ m ih =>
    intro lo mx h0 h1
    rw [maxSpec, readAt_in h0 (by omega)]
    exact ih (lo + 1) _ (by omega) (by push_cast at h1; omega)

theorem floor_bin {lo n : Int} {r : K} (h0 : 0 ≤ r) (h1 : r < 1) (hn : 0 < n) :
    lo ≤ ⌊(lo : K) + n * r⌋ ∧ ⌊(lo : K) + n * r⌋ < lo + n := by
  rw [Int.floor_intCast_add, mul_comm]
  obtain ⟨a, b⟩ := floor_unit h0 h1 hn
  omega

/-- The sampled bin: in the window, or the first bin of an empty window. -/
def Win (lo n k : Int) : Prop := lo ≤ k ∧ (k < lo + n ∨ (n = 0 ∧ k = lo))

theorem floor_win {lo n : Int} {r : K} (h0 : 0 ≤ r) (h1 : r < 1) (hn : 0 ≤ n) : Win lo n ⌊(lo : K) + n * r⌋ := by
  rcases eq_or_lt_of_le hn with h | h
  · subst h
    simp [Win]
  · obtain ⟨a, b⟩ := floor_bin (lo := lo) h0 h1 h
    exact ⟨a, Or.inl b⟩

theorem pickBin_sound (sp : List K) (lo n : Int) (mx : K) (hlo : 0 ≤ lo) (hn : 0 ≤ n) (hl : lo < sp.length)
    (hb : lo + n ≤ sp.length) : Sound (pickBin sp lo n mx) (Win lo n) := by
  intro s
  induction hN : s.length using Nat.strong_induction_on generalizing s with
  | _ N ih =>
    intro hs
    match s, hN, hs with
    | [], _, _ => simp [pickBin]
    | [_], _, _ => simp [pickBin]
    | r1 :: r2 :: s, hN, hs =>
      have hw := floor_win (lo := lo) (n := n) hs.cons.1.1 hs.cons.1.2 hn
      have hs2 := hs.cons.2.cons.2
      rw [pickBin]
      have hin : readAt sp ⌊(lo : K) + n * r1⌋ = .ok (sp[(⌊(lo : K) + n * r1⌋).toNat]'(by
          obtain ⟨a, b⟩ := hw; omega)) := readAt_in (by obtain ⟨a, b⟩ := hw; omega) _
      rw [hin]
      simp only []
      split
      · exact ih s.length (by simp at hN; omega) s rfl hs2
      · refine ⟨by simp, ?_⟩
        intro a s' e
        simp only [Out.ok.injEq, Prod.mk.injEq] at e
        obtain ⟨rfl, rfl⟩ := e
        exact ⟨hw, hs2⟩

section
variable {y : Sys K} {n N : Nat} {E : Nat → K}

theorem exc_read (h : Chained y n N E) {i : Nat} {k : Int} (hi : i ≤ n) (h0 : 0 ≤ k) (hN : k < N) :
    readAt2 y.exc i k = .ok (if ((k : K) + 1 / 2) * y.w ≤ E i then E i - k * y.w else 0) := by
  unfold readAt2
  have h1 : readAt y.exc (i : Int) = .ok ((List.range N).map fun k : Nat =>
    if ((k : K) + 1 / 2) * y.w ≤ E i then E i - k * y.w else 0) := by
    rw [readAt_ok_iff]; exact ⟨by omega, by simpa using h.bins i hi⟩
  rw [h1]
  simp only [Res.bind]
  rw [readAt_ok_iff]
  refine ⟨h0, ?_⟩
  obtain ⟨m, rfl⟩ := Int.eq_ofNat_of_zero_le h0
  simp only [Int.toNat_natCast]
  have hm : m < N := by exact_mod_cast hN
  simp [hm]

theorem E_mono (h : Chained y n N E) {i j : Nat} (hij : i ≤ j) (hj : j ≤ n) : E j ≤ E i := by
  induction j with
  | zero => simp at hij; subst hij; exact le_rfl
  | succ j ih =>
    rcases Nat.eq_or_lt_of_le hij with e | e
    · subst e; exact le_rfl
    · obtain ⟨q, _, hq0, hq⟩ := h.sep j (by omega)
      have := ih (by omega) (by omega)
      rw [hq]; linarith

/-- Bins whose energy in the last nucleus is at least `b >= w/2` are regular in every nucleus. -/
theorem exc_reg (h : Chained y n N E) {b : K} (hb : y.w / 2 ≤ b) {i : Nat} {k : Int} (hi : i ≤ n) (h0 : 0 ≤ k)
    (hN : k < N) (hk : b ≤ E n - k * y.w) : readAt2 y.exc i k = .ok (E i - k * y.w) := by
  rw [exc_read h hi h0 hN, if_pos]
  have := E_mono h hi le_rfl
  nlinarith

theorem bin_lt (h : Chained y n N E) {b : K} (hb : y.w ≤ b) {k : Int} (hk : b ≤ E n - k * y.w) : k < N := by
  have h1 := E_mono h (Nat.zero_le n) le_rfl
  have h2 := h.cover
  have h3 : (k : K) * y.w < (N : K) * y.w := by have := h.wpos; linarith
  have h4 : (k : K) < (N : K) := lt_of_mul_lt_mul_right h3 h.wpos.le
  exact_mod_cast h4

theorem ecms_reg (h : Chained y n N E) {b : K} (hb : y.w ≤ b) {i : Nat} {k0 k : Int} (hi : i < n) (h0 : 0 ≤ k0)
    (hk0 : k0 ≤ k) (hk : b ≤ E n - k * y.w) : ecms y i k0 k = .ok ((k - k0 : Int) * y.w) := by
  obtain ⟨q, hq, _, hE⟩ := h.sep i hi
  have hw := h.wpos
  have hkk : (k0 : K) ≤ k := by exact_mod_cast hk0
  have hb0 : b ≤ E n - k0 * y.w := by nlinarith
  unfold ecms
  rw [exc_reg h (by linarith) (by omega) h0 (bin_lt h hb hb0) hb0]
  have := exc_reg h (i := i + 1) (by linarith) (by omega) (by omega) (bin_lt h hb hk) hk
  push_cast at this
  rw [this]
  have h3 : readAt y.sep (i : Int) = .ok q := by rw [readAt_ok_iff]; exact ⟨by omega, by simpa using hq⟩
  rw [h3]
  simp only [Res.bind, Res.ok.injEq]
  rw [hE]
  push_cast
  ring

theorem smear_close (h : Chained y n N E) {e r : K} (h0 : 0 ≤ r) (h1 : r < 1) :
    |smear y e r - e| ≤ y.w / 2 := by
  have hw := h.wpos
  unfold smear
  rw [abs_le]
  constructor <;> nlinarith

/-- One later neutron. -/
theorem later_sound (h : Chained y n N E) {b : K} (hb : y.w ≤ b) (hbar : y.barrier[n]? = some b) {i : Nat} (hi0 : 0 < i)
    (hi : i ≤ n) {k : Int} (h0 : 0 ≤ k) (hk : b ≤ E n - k * y.w) (htiny : 0 ≤ y.tiny ∧ y.tiny ≤ y.w / 2) :
    Sound (later y n i k) (fun p => k ≤ p.2 ∧ b ≤ E n - p.2 * y.w ∧ |p.1 - (p.2 - k : Int) * y.w| ≤ y.w / 2) := by
  have hw := h.wpos
  have hkN := bin_lt h hb hk
  unfold later
  refine Sound.bind (P := fun x => x = E n - k * y.w)
    (Sound.lift_ok (exc_reg h (by linarith) le_rfl h0 hkN hk) rfl) ?_
  rintro x rfl
  refine Sound.bind (P := fun x => x = b) (Sound.lift_ok (a := b) (by
    rw [readAt_ok_iff]; exact ⟨by omega, by simpa using hbar⟩) rfl) ?_
  intro b' hb'
  rw [hb']
  refine Sound.ite ?_ ?_
  · intro _
    refine Sound.pure ⟨le_rfl, hk, ?_⟩
    simp only [sub_self, Int.cast_zero, zero_mul, sub_zero]
    rw [abs_of_nonneg htiny.1]; exact htiny.2
  · intro hx
    rw [not_lt] at hx
    have hm : 0 < ⌊(E n - k * y.w - b) / y.w⌋ := by
      rw [Int.floor_pos, le_div_iff₀ hw]; linarith
    have hfl : (⌊(E n - k * y.w - b) / y.w⌋ : K) * y.w ≤ E n - k * y.w - b := by
      rw [← le_div_iff₀ hw]; exact Int.floor_le _
    have hend : k + (⌊(E n - k * y.w - b) / y.w⌋ + 1) ≤ (N : Int) := by
      have : k + ⌊(E n - k * y.w - b) / y.w⌋ < N := by
        refine bin_lt h hb ?_
        push_cast
        linarith
      omega
    refine Sound.bind (P := fun _ => True) (Sound.lift ?_ (fun _ _ => trivial)) ?_
    · obtain ⟨v, hv⟩ := maxSpec_total (y.sp i k) (⌊(E n - k * y.w - b) / y.w⌋ + 1).toNat k 0 h0 (by
        rw [h.later i k]; omega)
      rw [hv]; simp
    · intro mx _
      refine Sound.bind (pickBin_sound _ _ _ _ h0 (by omega) (by rw [h.later i k]; omega)
        (by rw [h.later i k]; omega)) ?_
      rintro kf ⟨hk1, hk2⟩
      have hkf : kf ≤ k + ⌊(E n - k * y.w - b) / y.w⌋ := by omega
      have hkf' : (kf : K) ≤ k + ⌊(E n - k * y.w - b) / y.w⌋ := by exact_mod_cast hkf
      have hbkf : b ≤ E n - kf * y.w := by nlinarith
      refine Sound.bind (P := fun e => e = ((kf - k : Int) : K) * y.w)
        (Sound.lift_ok (ecms_reg h hb (by omega) h0 hk1 hbkf) rfl) ?_
      rintro e rfl
      refine Sound.bind (Sound.draw (P := fun r => 0 ≤ r ∧ r < 1) (fun r a b => ⟨a, b⟩)) ?_
      rintro r ⟨hr0, hr1⟩
      exact Sound.pure ⟨hk1, hbkf, smear_close h hr0 hr1⟩

theorem laterAll_sound (h : Chained y n N E) {b : K} (hb : y.w ≤ b) (hbar : y.barrier[n]? = some b)
    (htiny : 0 ≤ y.tiny ∧ y.tiny ≤ y.w / 2) : ∀ (m i : Nat) (k : Int), 0 < i → i + m ≤ n + 1 → 0 ≤ k →
    b ≤ E n - k * y.w →
    Sound (laterAll y n i m k) (fun p => p.1.length = m ∧ k ≤ p.2 ∧ b ≤ E n - p.2 * y.w ∧
      (∀ e ∈ p.1, -(y.w / 2) ≤ e) ∧ |p.1.sum - (p.2 - k : Int) * y.w| ≤ m * (y.w / 2)) := by
  intro m
  induction m with
  | zero =>
    intro i k _ _ _ hk
    exact Sound.pure (by simp [hk])
  | succ m ih =>
    intro i k hi him h0 hk
    rw [laterAll]
    refine Sound.bind (later_sound h hb hbar hi (by omega) h0 hk htiny) ?_
    rintro ⟨e, k1⟩ ⟨h1, h2, h3⟩
    simp only at h1 h2 h3 ⊢
    refine Sound.bind (ih (i + 1) k1 (by omega) (by omega) (by omega) h2) ?_
    rintro ⟨es, k2⟩ ⟨g1, g2, g3, g4, g5⟩
    simp only at g1 g2 g3 g4 g5 ⊢
    refine Sound.pure ⟨by simp [g1], by omega, g3, ?_, ?_⟩
    · intro x hx
      rcases List.mem_cons.mp hx with rfl | hx
      · have hk : ((0 : Int) : K) ≤ ((k1 - k : Int) : K) := by exact_mod_cast (by omega : (0 : Int) ≤ k1 - k)
        have hw := h.wpos
        have := (abs_le.mp h3).1
        simp only [Int.cast_zero] at hk
        nlinarith
      · exact g4 x hx
    · simp only [List.sum_cons]
      have e1 : e + es.sum - ((k2 - k : Int) : K) * y.w
          = (e - ((k1 - k : Int) : K) * y.w) + (es.sum - ((k2 - k1 : Int) : K) * y.w) := by push_cast; ring
      rw [e1]
      refine (abs_add_le _ _).trans ?_
      have e2 : ((m + 1 : Nat) : K) * (y.w / 2) = m * (y.w / 2) + y.w / 2 := by push_cast; ring
      rw [e2]
      linarith

theorem first_sound (h : Chained y n N E) {b : K} (hb : y.w ≤ b) (hn : 0 < n) (hbE : b ≤ E n) :
    Sound (first y (E n - b)) (fun p => 0 ≤ p.2 ∧ b ≤ E n - p.2 * y.w ∧ |p.1 - (p.2 : K) * y.w| ≤ y.w / 2) := by
  have hw := h.wpos
  have hc : 0 ≤ ⌈(E n - b) / y.w⌉ := Int.ceil_nonneg (div_nonneg (by linarith) hw.le)
  have hkeep : ∀ k : Int, k < ⌈(E n - b) / y.w⌉ → b ≤ E n - k * y.w := by
    intro k hk
    rw [Int.lt_ceil, lt_div_iff₀ hw] at hk
    linarith
  have h0N : (0 : Int) < N := bin_lt h hb (k := 0) (by simpa using hbE)
  have hcN : ⌈(E n - b) / y.w⌉ ≤ N := by
    rcases eq_or_lt_of_le hc with e | e
    · omega
    · have := bin_lt h hb (hkeep (⌈(E n - b) / y.w⌉ - 1) (by omega))
      omega
  unfold first
  refine Sound.bind (P := fun _ => True) (Sound.lift ?_ (fun _ _ => trivial)) ?_
  · obtain ⟨v, hv⟩ := maxSpec_total y.sp1 ⌈(E n - b) / y.w⌉.toNat 0 0 le_rfl (by rw [h.first]; omega)
    rw [hv]; simp
  · intro mx _
    refine Sound.bind (pickBin_sound _ _ _ _ le_rfl hc (by rw [h.first]; exact h0N) (by rw [h.first]; omega)) ?_
    rintro kf ⟨hk1, hk2⟩
    have hbk : b ≤ E n - kf * y.w := by
      rcases hk2 with hk2 | ⟨_, rfl⟩
      · exact hkeep kf (by omega)
      · simpa using hbE
    refine Sound.bind (P := fun e => e = (kf : K) * y.w)
      (Sound.lift_ok (a := (kf : K) * y.w) (by
        have := ecms_reg h hb (i := 0) hn le_rfl hk1 hbk
        simpa using this) rfl) ?_
    rintro e rfl
    refine Sound.bind (Sound.draw (P := fun r => 0 ≤ r ∧ r < 1) (fun r a b => ⟨a, b⟩)) ?_
    rintro r ⟨hr0, hr1⟩
    exact Sound.pure ⟨hk1, hbk, smear_close h hr0 hr1⟩

theorem energies_sound (h : Chained y n N E) {b : K} (hb : y.w ≤ b) (hbar : y.barrier[n]? = some b) (hN : 0 < N)
    (htiny : 0 ≤ y.tiny ∧ y.tiny ≤ y.w / 2) (nemit : Int) (E0 : K) :
    Sound (energies y nemit n E0) (fun p =>
      (p.1 = none ∧ p.2 = E0 ∧ (nemit = 0 ∨ n = 0 ∨ E n < b)) ∨
      ∃ es, p.1 = some es ∧ es.length = n ∧ (∀ e ∈ es, -(y.w / 2) ≤ e) ∧ b ≤ p.2 ∧
        |E n - es.sum - p.2| ≤ n * (y.w / 2)) := by
  have hw := h.wpos
  unfold energies
  refine Sound.ite ?_ ?_
  · intro hc
    refine Sound.pure (Or.inl ⟨rfl, rfl, ?_⟩)
    tauto
  · intro hc
    have hn : 0 < n := by omega
    refine Sound.bind (P := fun x => x = if (((0 : Int) : K) + 1 / 2) * y.w ≤ E n then E n - ((0 : Int) : K) * y.w else 0)
      (Sound.lift_ok (exc_read h le_rfl le_rfl (by omega)) rfl) ?_
    rintro x hx
    refine Sound.bind (P := fun x => x = b) (Sound.lift_ok (a := b) (by
      rw [readAt_ok_iff]; exact ⟨by omega, by simpa using hbar⟩) rfl) ?_
    intro b' hb'
    rw [hb']
    refine Sound.ite ?_ ?_
    · intro hlt
      refine Sound.pure (Or.inl ⟨rfl, rfl, Or.inr (Or.inr ?_)⟩)
      subst hx
      split at hlt
      · simp at hlt; linarith
      · rename_i hne
        simp at hne
        linarith
    · intro hge
      rw [not_lt] at hge
      have hxE : x = E n := by
        subst hx
        split
        · simp
        · rename_i hne
          rw [if_neg hne] at hge
          linarith
      rw [hxE] at hge ⊢
      refine Sound.bind (first_sound h hb hn (by linarith)) ?_
      rintro ⟨e, k1⟩ ⟨h1, h2, h3⟩
      simp only at h1 h2 h3 ⊢
      refine Sound.bind (laterAll_sound h hb hbar htiny (n - 1) 2 k1 (by omega) (by omega) h1 h2) ?_
      rintro ⟨es, k2⟩ ⟨g1, g2, g3, g4, g5⟩
      simp only at g1 g2 g3 g4 g5 ⊢
      refine Sound.bind (P := fun x => x = E n - k2 * y.w)
        (Sound.lift_ok (exc_reg h (by linarith) le_rfl (by omega) (bin_lt h hb g3) g3) rfl) ?_
      rintro _ rfl
      refine Sound.pure (Or.inr ⟨e :: es, rfl, by simp [g1]; omega, ?_, g3, ?_⟩)
      · intro z hz
        rcases List.mem_cons.mp hz with rfl | hz
        · have hk : ((0 : Int) : K) ≤ (k1 : K) := by exact_mod_cast h1
          simp only [Int.cast_zero] at hk
          have := (abs_le.mp h3).1
          nlinarith
        · exact g4 z hz
      · simp only [List.sum_cons]
        have e1 : E n - (e + es.sum) - (E n - (k2 : K) * y.w)
          = -((e - (k1 : K) * y.w) + (es.sum - ((k2 - k1 : Int) : K) * y.w)) := by push_cast; ring
        rw [e1, abs_neg]
        refine (abs_add_le _ _).trans ?_
        have hc1 : ((n - 1 : Nat) : K) = (n : K) - 1 := by
          rw [Nat.cast_sub hn]; simp
        rw [hc1] at g5
        linarith

end

end CGMF.Pre
