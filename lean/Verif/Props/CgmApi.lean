import Verif.Proofs.CgmApi
import Verif.Props.Gamcas
import Verif.Props.Event
import Verif.Props.LawStep
import Mathlib.Data.Rat.Floor
import Mathlib.Data.List.Forall2
import Mathlib.Data.List.Perm.Basic

/-!
# C102: what `cgm` returns
-/

namespace CGMF.Props

open CGMF.MC CGMF.Gamcas CGMF.CgmApi

section
variable {K : Type} [Field K] [LinearOrder K] [IsStrictOrderedRing K] [FloorRing K]

/-- Hypotheses on the constants of the code: rounding constant 1e-4, filter 1e-99, bin width 0.05. -/
structure Consts (eps low de : K) : Prop where
  eps0 : 0 < eps
  low0 : 0 < low
  low1 : low ≤ 1
  de0 : 0 < de
  de1 : de ≤ 1
  half : eps < de / 2

/-- Emission energies between zero and the upper end of the spectrum. -/
def InRange (N : Nat) (eps de : K) (hs : List (Hist K)) : Prop :=
  ∀ h ∈ hs, 0 ≤ h.ep ∧ h.ep < ((N : K) - 1 / 2 - eps) * de

/-- **C102.** The photon energies returned are the centres of the bins in which at least one photon or
conversion electron falls, in increasing order, at most `cap`; likewise the neutron energies.  `cgm` is defined
for every decay whose emission energies are in range. -/
theorem C102_lines {N cap : Nat} {eps low de : K} (hc : Consts eps low de) (hs : List (Hist K)) (hr : InRange N eps de hs) :
    cgm N cap eps low de hs = .ok
      ((((List.range N).filter fun k => decide (∃ h ∈ hs, h.id ≠ .neutron ∧ InBin eps de k h.ep)).map
          fun k : Nat => (k : K) * de).take cap,
       (((List.range N).filter fun k => decide (∃ h ∈ hs, h.id = .neutron ∧ InBin eps de k h.ep)).map
          fun k : Nat => (k : K) * de).take cap) := by
  unfold cgm
  have e0 : List.replicate N (0 : K) = (List.range N).map fun _ => 0 := by
    rw [List.map_const', List.length_range]
  rw [e0, tallyAll_eq hc.eps0 hc.de0 hc.de1 hc.half hs hr]
  simp only [Res.bind]
  have h1 := lines_bins (N := N) (eps := eps) (de := de) hc.low0 hc.low1 cap (fun i => i ≠ .neutron) hs
  have h2 := lines_bins (N := N) (eps := eps) (de := de) hc.low0 hc.low1 cap (fun i => i = .neutron) hs
  rw [h1, h2]
  rfl

/-- **C102.** Nothing is invented: every returned photon energy is within half a bin (and the rounding constant)
of an emitted photon or conversion electron, every returned neutron energy of an emitted neutron; the returned
energies are strictly increasing and at most `cap` of each. -/
theorem C102_sound {N cap : Nat} {eps low de : K} (hc : Consts eps low de) (hs : List (Hist K)) (hr : InRange N eps de hs) :
    ∃ g n, cgm N cap eps low de hs = .ok (g, n) ∧ g.length ≤ cap ∧ n.length ≤ cap ∧
      g.Pairwise (· < ·) ∧ n.Pairwise (· < ·) ∧
      (∀ x ∈ g, ∃ h ∈ hs, h.id ≠ .neutron ∧ |x - h.ep| ≤ de / 2 + eps * de) ∧
      (∀ x ∈ n, ∃ h ∈ hs, h.id = .neutron ∧ |x - h.ep| ≤ de / 2 + eps * de) := by
  have key : ∀ (p : Nat → Bool), ((((List.range N).filter p).map fun k : Nat => (k : K) * de).take cap).Pairwise (· < ·) := by
    intro p
    apply List.Pairwise.sublist (List.take_sublist _ _)
    rw [List.pairwise_map]
    apply List.Pairwise.sublist List.filter_sublist
    refine List.Pairwise.imp ?_ List.pairwise_lt_range
    intro a b hab
    have : (a : K) < b := by exact_mod_cast hab
    exact mul_lt_mul_of_pos_right this hc.de0
  refine ⟨_, _, C102_lines hc hs hr, List.length_take_le _ _, List.length_take_le _ _, key _, key _, ?_, ?_⟩
  · intro x hx
    obtain ⟨k, hk, rfl⟩ := List.mem_map.mp (List.mem_of_mem_take hx)
    have := (List.mem_filter.mp hk).2
    rw [decide_eq_true_eq] at this
    obtain ⟨h, hh, hp, hb⟩ := this
    exact ⟨h, hh, hp, hb.close hc.de0 hc.eps0⟩
  · intro x hx
    obtain ⟨k, hk, rfl⟩ := List.mem_map.mp (List.mem_of_mem_take hx)
    have := (List.mem_filter.mp hk).2
    rw [decide_eq_true_eq] at this
    obtain ⟨h, hh, hp, hb⟩ := this
    exact ⟨h, hh, hp, hb.close hc.de0 hc.eps0⟩

/-- **C63.**  The event of a decay in range: the line tables of `cap` entries are never read beyond their end, the
energy getters show the returned lines and nothing else, and the direction and age getters read storage that was
never written.  `mclg`, `mcln` are the global tables, filled from their start. -/
theorem C63_cgm_event {N cap : Nat} {eps low de : K} (hc : Consts eps low de) (hs : List (Hist K)) (hr : InRange N eps de hs) :
    ∃ g n, cgm N cap eps low de hs = .ok (g, n) ∧ ∀ mclg mcln : List K, mclg.length = cap → mcln.length = cap →
      g <+: mclg → n <+: mcln → ∃ e, Event.cgmAssemble g.length n.length mclg mcln = .ok e ∧
      (∀ i : Nat, i < g.length → ∃ x, g[i]? = some x ∧ Event.getPhotonEnergy e i = .ok x) ∧
      (∀ i : Nat, i < n.length → ∃ x, n[i]? = some x ∧ Event.getNeutronEnergy e i = .ok x) ∧
      (∀ i : Nat, i < g.length → Event.getPhotonDircosu e i = .ub ∧ Event.getPhotonAge e i = .ub) ∧
      (∀ i : Nat, i < n.length → Event.getNeutronDircosu e i = .ub ∧ Event.getNeutronAge e i = .ub) := by
  obtain ⟨g, n, h1, _⟩ := C102_sound (cap := cap) hc hs hr
  refine ⟨g, n, h1, ?_⟩
  intro mclg mcln _ _ pg pn
  obtain ⟨e, he, a, b, c, d⟩ := C63_cgm_directions_indeterminate g.length n.length mclg mcln pg.length_le pn.length_le
  refine ⟨e, he, ?_, ?_, fun i hi => ⟨(c i hi).1, (c i hi).2.2.2⟩, fun i hi => ⟨(d i hi).1, (d i hi).2.2.2.1⟩⟩
  · intro i hi
    obtain ⟨x, hx, hg⟩ := a i hi
    obtain ⟨t, rfl⟩ := pg
    rw [List.getElem?_append_left hi] at hx
    exact ⟨x, hx, hg⟩
  · intro i hi
    obtain ⟨x, hx, hg⟩ := b i hi
    obtain ⟨t, rfl⟩ := pn
    rw [List.getElem?_append_left hi] at hx
    exact ⟨x, hx, hg⟩

/-- One-to-one correspondence of returned and emitted energies up to a tolerance. -/
def Matches (tol : K) (ret emitted : List K) : Prop :=
  ∃ l : List K, l.Perm emitted ∧ List.Forall₂ (fun x y => |x - y| ≤ tol) ret l

/-- The emission energies of one kind lie in different bins, none below half a bin, and there are at most `cap`. -/
def Separated (cap : Nat) (eps de : K) (p : Pid → Prop) [DecidablePred p] (hs : List (Hist K)) : Prop :=
  (∀ h ∈ hs, p h.id → de / 2 ≤ h.ep) ∧ (hs.countP fun h => decide (p h.id)) ≤ cap ∧
    (hs.filter fun h => decide (p h.id)).Pairwise fun a b => ∀ k, InBin eps de k a.ep → ¬ InBin eps de k b.ep

theorem matches_of_separated {N cap : Nat} {eps low de : K} (hc : Consts eps low de) (p : Pid → Prop) [DecidablePred p]
    (hs : List (Hist K)) (hr : InRange N eps de hs) (hsep : Separated cap eps de p hs) :
    Matches (de / 2 + eps * de)
      ((((List.range N).filter fun k => decide (∃ h ∈ hs, p h.id ∧ InBin eps de k h.ep)).map fun k : Nat => (k : K) * de).take cap)
      ((hs.filter fun h => decide (p h.id)).map (·.ep)) := by
  obtain ⟨h1, h2, h3⟩ := hsep
  set es := hs.filter fun h => decide (p h.id) with hes
  have hex : ∀ h : Hist K, ∃ k, h ∈ es → k < N ∧ InBin eps de k h.ep := by
    intro h
    by_cases hh : h ∈ es
    · have hm := List.mem_filter.mp hh
      have hp : p h.id := by simpa using hm.2
      obtain ⟨k, hk⟩ := exists_bin hc.eps0 hc.de0 hc.half hc.de1 (h1 h hm.1 hp) (hr h hm.1).2
      exact ⟨k, fun _ => hk⟩
    · exact ⟨0, fun h' => absurd h' hh⟩
  choose bin hbin using hex
  set ks := (List.range N).filter fun k => decide (∃ h ∈ hs, p h.id ∧ InBin eps de k h.ep) with hks
  have hnd : (es.map bin).Nodup := by
    rw [List.Nodup, List.pairwise_map]
    refine List.Pairwise.imp_of_mem ?_ h3
    intro a b ha hb hab heq
    have x := (hbin a ha).2
    have y := (hbin b hb).2
    rw [← heq] at y
    exact hab _ x y
  have hkn : ks.Nodup := List.Nodup.filter _ List.nodup_range
  have hperm : ks.Perm (es.map bin) := by
    rw [List.perm_ext_iff_of_nodup hkn hnd]
    intro k
    rw [hks, List.mem_filter, List.mem_range, decide_eq_true_eq, List.mem_map]
    constructor
    · rintro ⟨_, h, hh, hp, hb⟩
      have he : h ∈ es := List.mem_filter.mpr ⟨hh, by simpa using hp⟩
      exact ⟨h, he, InBin.unique hc.de0 (hbin h he).2 hb⟩
    · rintro ⟨h, he, rfl⟩
      have hm := List.mem_filter.mp he
      exact ⟨(hbin h he).1, h, hm.1, by simpa using hm.2, (hbin h he).2⟩
  have hlen : ks.length ≤ cap := by
    rw [hperm.length_eq, List.length_map, hes, ← List.countP_eq_length_filter]
    exact h2
  rw [List.take_of_length_le (by rw [List.length_map]; exact hlen)]
  have hf : List.Forall₂ (fun x y => |x - y| ≤ de / 2 + eps * de) ((es.map bin).map fun k : Nat => (k : K) * de) (es.map (·.ep)) := by
    rw [List.map_map, List.forall₂_map_left_iff, List.forall₂_map_right_iff, List.forall₂_same]
    intro h he
    exact (hbin h he).2.close hc.de0 hc.eps0
  obtain ⟨l, hl1, hl2⟩ := List.perm_comp_forall₂ (hperm.map fun k : Nat => (k : K) * de) hf
  exact ⟨l, hl2, hl1⟩

/-- **C102** (partial: the full claim, one returned energy per emitted photon and neutron in every decay, is
refuted below).  If no conversion electron is emitted and both the photon and the neutron energies lie in
different bins, none below half a bin, with at most `cap` of each, the returned energies correspond one to one
to the emitted ones, within half a bin and the rounding constant. -/
theorem C102_partial {N cap : Nat} {eps low de : K} (hc : Consts eps low de) (hs : List (Hist K)) (hr : InRange N eps de hs)
    (hic : ∀ h ∈ hs, h.id ≠ .ic) (hg : Separated cap eps de (· = .gamma) hs) (hn : Separated cap eps de (· = .neutron) hs) :
    ∃ g n, cgm N cap eps low de hs = .ok (g, n) ∧
      Matches (de / 2 + eps * de) g ((hs.filter fun h => decide (h.id = .gamma)).map (·.ep)) ∧
      Matches (de / 2 + eps * de) n ((hs.filter fun h => decide (h.id = .neutron)).map (·.ep)) := by
  have hid : ∀ h ∈ hs, (h.id ≠ .neutron ↔ h.id = .gamma) := by
    intro h hh
    have := hic h hh
    cases hx : h.id <;> simp_all
  refine ⟨_, _, C102_lines hc hs hr, ?_, matches_of_separated hc _ hs hr hn⟩
  have := matches_of_separated hc _ hs hr hg
  convert this using 5
  rw [decide_eq_decide]
  constructor
  · rintro ⟨h, hh, hp, hb⟩; exact ⟨h, hh, (hid h hh).mp hp, hb⟩
  · rintro ⟨h, hh, hp, hb⟩; exact ⟨h, hh, (hid h hh).mpr hp, hb⟩

/-- **C102** refuted: two photons of the same energy are returned as one. -/
theorem C102_merged {N cap : Nat} {eps low de : K} (hc : Consts eps low de) (e : K) (he : de / 2 ≤ e)
    (heN : e < ((N : K) - 1 / 2 - eps) * de) (m m' : MCPoint K) (hcap : 0 < cap) :
    ∃ x, cgm N cap eps low de [⟨.gamma, e, m⟩, ⟨.gamma, e, m'⟩] = .ok ([x], []) := by
  obtain ⟨k, hk, hb⟩ := exists_bin hc.eps0 hc.de0 hc.half hc.de1 he heN
  have hr : InRange N eps de [⟨.gamma, e, m⟩, ⟨.gamma, e, m'⟩] := by
    intro h hh
    have h0 : 0 ≤ e := le_trans (by have := hc.de0; positivity) he
    simp only [List.mem_cons, List.not_mem_nil, or_false] at hh
    rcases hh with rfl | rfl <;> exact ⟨h0, heN⟩
  refine ⟨(k : K) * de, ?_⟩
  rw [C102_lines hc _ hr]
  have e1 : ((List.range N).filter fun k => decide (∃ h ∈ [(⟨.gamma, e, m⟩ : Hist K), ⟨.gamma, e, m'⟩], h.id ≠ .neutron ∧ InBin eps de k h.ep)) = [k] := by
    have : (List.range N).filter (fun k => decide (∃ h ∈ [(⟨.gamma, e, m⟩ : Hist K), ⟨.gamma, e, m'⟩], h.id ≠ .neutron ∧ InBin eps de k h.ep))
        = (List.range N).filter (fun i => decide (i = k)) := by
      apply List.filter_congr
      intro i _
      rw [decide_eq_decide]
      constructor
      · rintro ⟨h, hh, _, hb'⟩
        simp only [List.mem_cons, List.not_mem_nil, or_false] at hh
        rcases hh with rfl | rfl <;> exact InBin.unique hc.de0 hb' hb
      · rintro rfl
        exact ⟨_, List.mem_cons_self .., by simp, hb⟩
    rw [this]
    have hp : ((List.range N).filter (fun i => decide (i = k))).Perm [k] := by
      rw [List.perm_ext_iff_of_nodup (List.Nodup.filter _ List.nodup_range) (List.nodup_singleton k)]
      intro i
      simp only [List.mem_filter, List.mem_range, decide_eq_true_eq, List.mem_singleton]
      constructor
      · exact fun h => h.2
      · rintro rfl; exact ⟨hk, rfl⟩
    exact List.perm_singleton.mp hp
  have e2 : ((List.range N).filter fun k => decide (∃ h ∈ [(⟨.gamma, e, m⟩ : Hist K), ⟨.gamma, e, m'⟩], h.id = .neutron ∧ InBin eps de k h.ep)) = [] := by
    rw [List.filter_eq_nil_iff]
    intro i _
    simp
  rw [e1, e2]
  obtain ⟨c, rfl⟩ : ∃ c, cap = c + 1 := ⟨cap - 1, by omega⟩
  simp

/-- **C102** refuted: a photon (or neutron) below half a bin is not returned, whatever else is emitted. -/
theorem C102_soft {N cap : Nat} {eps low de : K} (hc : Consts eps low de) (hs hs' : List (Hist K)) (h : Hist K)
    (hr : InRange N eps de (hs ++ h :: hs')) (hsoft : h.ep < de / 2) :
    cgm N cap eps low de (hs ++ h :: hs') = cgm N cap eps low de (hs ++ hs') := by
  have hr' : InRange N eps de (hs ++ hs') := by
    intro x hx
    apply hr
    rcases List.mem_append.mp hx with h1 | h1
    · exact List.mem_append.mpr (Or.inl h1)
    · exact List.mem_append.mpr (Or.inr (List.mem_cons_of_mem _ h1))
  have key : ∀ (q : Pid → Prop) (k : Nat), (∃ x ∈ hs ++ h :: hs', q x.id ∧ InBin eps de k x.ep) ↔ ∃ x ∈ hs ++ hs', q x.id ∧ InBin eps de k x.ep := by
    intro q k
    constructor
    · rintro ⟨x, hx, hq, hb⟩
      rcases List.mem_append.mp hx with h1 | h1
      · exact ⟨x, List.mem_append.mpr (Or.inl h1), hq, hb⟩
      · rcases List.mem_cons.mp h1 with rfl | h1
        · exact absurd hb.2.2.2 (not_le.mpr hsoft)
        · exact ⟨x, List.mem_append.mpr (Or.inr h1), hq, hb⟩
    · rintro ⟨x, hx, hq, hb⟩
      rcases List.mem_append.mp hx with h1 | h1
      · exact ⟨x, List.mem_append.mpr (Or.inl h1), hq, hb⟩
      · exact ⟨x, List.mem_append.mpr (Or.inr (List.mem_cons_of_mem _ h1)), hq, hb⟩
  rw [C102_lines hc _ hr, C102_lines hc _ hr']
  simp only [key (fun i => i ≠ .neutron), key (fun i => i = .neutron)]

/-- **C102** refuted: a conversion electron is returned as a photon; replacing photons by electrons changes
nothing. -/
theorem C102_electron {N cap : Nat} {eps low de : K} (hc : Consts eps low de) (hs hs' : List (Hist K)) (e : K) (m : MCPoint K)
    (hr : InRange N eps de (hs ++ ⟨.ic, e, m⟩ :: hs')) :
    cgm N cap eps low de (hs ++ ⟨.ic, e, m⟩ :: hs') = cgm N cap eps low de (hs ++ ⟨.gamma, e, m⟩ :: hs') := by
  have hr' : InRange N eps de (hs ++ ⟨.gamma, e, m⟩ :: hs') := by
    intro x hx
    rcases List.mem_append.mp hx with h1 | h1
    · exact hr x (List.mem_append.mpr (Or.inl h1))
    · rcases List.mem_cons.mp h1 with rfl | h1
      · exact hr ⟨.ic, e, m⟩ (List.mem_append.mpr (Or.inr (List.mem_cons_self ..)))
      · exact hr x (List.mem_append.mpr (Or.inr (List.mem_cons_of_mem _ h1)))
  have key : ∀ (q : Pid → Prop) (_ : q .ic ↔ q .gamma) (k : Nat), (∃ x ∈ hs ++ ⟨.ic, e, m⟩ :: hs', q x.id ∧ InBin eps de k x.ep) ↔
      ∃ x ∈ hs ++ ⟨.gamma, e, m⟩ :: hs', q x.id ∧ InBin eps de k x.ep := by
    intro q hq k
    simp only [List.mem_append, List.mem_cons, or_and_right, exists_or, exists_eq_left, hq]
  rw [C102_lines hc _ hr, C102_lines hc _ hr']
  simp only [key (fun i => i ≠ .neutron) (by simp), key (fun i => i = .neutron) (by simp)]

/-- **C102** refuted: an emission energy exactly at the upper end of the spectrum is counted beyond the array. -/
theorem C102_overrun {N cap : Nat} {eps low de : K} (hc : Consts eps low de) (hN : eps < N * de) (i : Pid) (m : MCPoint K)
    (hs : List (Hist K)) : cgm N cap eps low de (⟨i, N * de, m⟩ :: hs) = .ub := by
  have heps : eps < 1 / 2 := by have := hc.half; have := hc.de1; linarith
  have hb := C32_bin_overrun N eps de hc.eps0 heps hc.de0 hN
  have hN0 : N ≠ 0 := by rintro rfl; have := hc.eps0; simp at hN; linarith
  obtain ⟨k, rfl⟩ := Nat.exists_eq_succ_of_ne_zero hN0
  have hcount : count (k + 1) eps de (List.replicate (k + 1) 0) (((k + 1 : Nat) : K) * de) = .ub := by
    unfold count
    rw [hb]
    simp only [readAt]
    rw [dif_neg]
    · rfl
    · rw [List.length_replicate]; omega
  unfold cgm tallyAll tally
  simp only []
  split <;> rw [hcount] <;> rfl

end

/-! ## The record -/

section
variable {K : Type}

/-- **C102.** `recordEmittedParticles`, called after every decay, stays inside its arrays exactly when there are
at most `cap` neutrons, photons and electrons each. -/
theorem C102_record (cap : Nat) (hs : List (Hist K)) :
    (∃ a, recordAll cap hs ⟨[], [], []⟩ = .ok a) ↔
      ∀ i : Pid, (hs.countP fun h => decide (h.id = i)) ≤ cap := by
  have gen : ∀ (hs : List (Hist K)) (a : Arrays K), a.neutron.length ≤ cap → a.gamma.length ≤ cap → a.ic.length ≤ cap →
      ((∃ b, recordAll cap hs a = .ok b) ↔ (a.neutron.length + (hs.countP fun h => decide (h.id = .neutron)) ≤ cap ∧
        a.gamma.length + (hs.countP fun h => decide (h.id = .gamma)) ≤ cap ∧
        a.ic.length + (hs.countP fun h => decide (h.id = .ic)) ≤ cap)) := by
    intro hs
    induction hs with
    | nil => intro a h1 h2 h3; simp [recordAll, h1, h2, h3]
    | cons h hs ih =>
      intro a h1 h2 h3
      obtain ⟨i, e, m⟩ := h
      cases i <;> simp only [recordAll, recordStep, MC.push]
      · by_cases hl : a.gamma.length < cap
        · rw [if_pos hl]
          simp only [Res.bind]
          rw [ih ⟨a.neutron, a.gamma ++ [e], a.ic⟩ h1 (by simp; omega) h3]
          simp [List.countP_cons]
          omega
        · rw [if_neg hl]
          simp only [Res.bind]
          constructor
          · rintro ⟨b, hb⟩; cases hb
          · rintro ⟨_, h, _⟩; exfalso; simp at h; omega
      · by_cases hl : a.neutron.length < cap
        · rw [if_pos hl]
          simp only [Res.bind]
          rw [ih ⟨a.neutron ++ [e], a.gamma, a.ic⟩ (by simp; omega) h2 h3]
          simp [List.countP_cons]
          omega
        · rw [if_neg hl]
          simp only [Res.bind]
          constructor
          · rintro ⟨b, hb⟩; cases hb
          · rintro ⟨h, _, _⟩; exfalso; simp at h; omega
      · by_cases hl : a.ic.length < cap
        · rw [if_pos hl]
          simp only [Res.bind]
          rw [ih ⟨a.neutron, a.gamma, a.ic ++ [e]⟩ h1 h2 (by simp; omega)]
          simp [List.countP_cons]
          omega
        · rw [if_neg hl]
          simp only [Res.bind]
          constructor
          · rintro ⟨b, hb⟩; cases hb
          · rintro ⟨_, _, h⟩; exfalso; simp at h; omega
  rw [gen hs ⟨[], [], []⟩ (by simp) (by simp) (by simp)]
  simp only [List.length_nil, Nat.zero_add]
  constructor
  · rintro ⟨a, b, c⟩ i
    cases i <;> assumption
  · intro h; exact ⟨h _, h _, h _⟩

/-- **C102** refuted: a decay with more photons than `cap` entries overruns the arrays, although the history has
room for it. -/
theorem C102_record_overrun (cap : Nat) (hs : List (Hist K)) (h : cap < (hs.countP fun h => decide (h.id = .gamma))) :
    recordAll cap hs ⟨[], [], []⟩ = .ub := by
  have h1 : ¬ ∃ a, recordAll cap hs ⟨[], [], []⟩ = .ok a := by
    rw [C102_record]
    intro h2
    exact absurd (h2 .gamma) (by omega)
  have h2 : ∀ (hs : List (Hist K)) (a : Arrays K), recordAll cap hs a ≠ .exit := by
    intro hs
    induction hs with
    | nil => intro a; simp [recordAll]
    | cons h hs ih =>
      intro a
      unfold recordAll recordStep MC.push
      rcases h.id <;> simp only [] <;> split <;> first | exact ih _ | (simp [Res.bind])
  cases hr : recordAll cap hs ⟨[], [], []⟩ with
  | ok a => exact absurd ⟨a, hr⟩ h1
  | exit => exact absurd hr (h2 _ _)
  | ub => rfl

end

/-! ## The initial state -/

section
open CGMF.Law CGMF.HF

theorem start_mem {K : Type} (pop : List (K × K)) (j : Nat) (a : Int × Int) (v : K) :
    (a, v) ∈ startEntries j pop ↔ ∃ i x, pop[i]? = some x ∧ ((a = (((j + i : Nat) : Int), 1) ∧ v = x.1) ∨ (a = (((j + i : Nat) : Int), -1) ∧ v = x.2)) := by
  induction pop generalizing j with
  | nil => simp [startEntries]
  | cons y pop ih =>
    rw [startEntries, List.mem_cons, List.mem_cons, ih]
    constructor
    · rintro (h | h | ⟨i, x, h1, h2⟩)
      · cases h; exact ⟨0, y, rfl, Or.inl ⟨rfl, rfl⟩⟩
      · cases h; exact ⟨0, y, rfl, Or.inr ⟨rfl, rfl⟩⟩
      · refine ⟨i + 1, x, h1, ?_⟩
        rw [show j + (i + 1) = j + 1 + i by omega]
        exact h2
    · rintro ⟨i, x, h1, h2⟩
      cases i with
      | zero =>
        simp only [List.getElem?_cons_zero, Option.some.injEq] at h1
        subst h1
        rcases h2 with ⟨rfl, rfl⟩ | ⟨rfl, rfl⟩
        · exact Or.inl rfl
        · exact Or.inr (Or.inl rfl)
      | succ i =>
        refine Or.inr (Or.inr ⟨i, x, h1, ?_⟩)
        rw [show j + 1 + i = j + (i + 1) by omega]
        exact h2

theorem start_nodup {K : Type} (pop : List (K × K)) (j : Nat) : ((startEntries j pop).map Prod.fst).Nodup := by
  induction pop generalizing j with
  | nil => simp [startEntries]
  | cons y pop ih =>
    have hnot : ∀ s : Int, ((j : Int), s) ∉ (startEntries (j + 1) pop).map Prod.fst := by
      intro s h
      obtain ⟨⟨a, v⟩, h1, h2⟩ := List.mem_map.mp h
      obtain ⟨i, x, _, h3⟩ := (start_mem pop (j + 1) a v).mp h1
      rcases h3 with ⟨rfl, _⟩ | ⟨rfl, _⟩ <;>
      · simp only [Prod.mk.injEq] at h2
        omega
    rw [startEntries, List.map_cons, List.map_cons, List.nodup_cons, List.nodup_cons]
    refine ⟨?_, hnot _, ih _⟩
    rw [List.mem_cons]
    rintro (h | h)
    · simp at h
    · exact hnot _ h

theorem start_sum (pop : List (ℝ × ℝ)) (j : Nat) : ((startEntries j pop).map (·.2)).sum = (pop.map fun x => x.1 + x.2).sum := by
  induction pop generalizing j with
  | nil => simp [startEntries]
  | cons y pop ih => simp [startEntries, ih]; ring

/-- **C103.** With a normalised initial population the initial state is drawn from it: the probability of spin
index `j` and either parity is the population of that state. -/
theorem C103_start (pop : List (ℝ × ℝ)) (hp : IsDistribution pop) (j : Nat) (x : ℝ × ℝ) (hx : pop[j]? = some x) :
    prob (sampleStart pop) ((j : Int), 1) = ENNReal.ofReal x.1 ∧ prob (sampleStart pop) ((j : Int), -1) = ENNReal.ofReal x.2 := by
  have hsum : ((startEntries 0 pop).map (·.2)).sum = 1 := by rw [start_sum]; exact hp.2
  have hnn : ∀ y ∈ startEntries 0 pop, 0 ≤ y.2 := by
    rintro ⟨a, v⟩ hy
    obtain ⟨i, z, hz, h⟩ := (start_mem pop 0 a v).mp hy
    have := hp.1 z (List.mem_of_getElem? hz)
    rcases h with ⟨_, rfl⟩ | ⟨_, rfl⟩
    · exact this.1
    · exact this.2
  have hev : ∀ a v, (a, v) ∈ startEntries 0 pop → prob (sampleStart pop) a = ENNReal.ofReal v := by
    intro a v hv
    have h1 : prob (sampleStart pop) a = stream {ω | ∃ b, firstReach (ω 0) 0 (startEntries 0 pop) = some b ∧ b = a} := by
      apply stream_congr
      intro ω hω
      obtain ⟨b, hb⟩ := reach_total (startEntries 0 pop) 0 (ω 0) (by
        rw [zero_add]
        exact le_of_lt (lt_of_lt_of_eq (hω 0).2 hsum.symm)) (hω 0).1
      have hrun : ∀ s, sampleStart pop (ω 0 :: s) = .ok (b, s) := by
        intro s
        unfold sampleStart
        rw [Rnd.bind_run, Rnd.draw_cons]
        simp only [hb]
        rfl
      simp only [Set.mem_ofPred_eq]
      constructor
      · rintro ⟨n, hn⟩
        cases n with
        | zero => cases hn
        | succ n =>
          have e : pre ω (n + 1) = ω 0 :: (pre (fun i => ω (i + 1)) n) := by
            simp [pre, List.range_succ_eq_map, Function.comp_def]
          rw [e, hrun] at hn
          simp only [Out.ok.injEq, Prod.mk.injEq] at hn
          exact ⟨_, hb, hn.1⟩
      · rintro ⟨c, hc, rfl⟩
        rw [hb] at hc
        cases hc
        exact ⟨1, hrun []⟩
    rw [h1, select_set (fun b => b = a) _ hnn (le_of_eq hsum), (sum_pick a _ (start_nodup pop 0)).1 v hv]
  refine ⟨hev _ _ ((start_mem pop 0 _ _).mpr ⟨j, x, hx, Or.inl ⟨by simp, rfl⟩⟩),
    hev _ _ ((start_mem pop 0 _ _).mpr ⟨j, x, hx, Or.inr ⟨by simp, rfl⟩⟩)⟩

/-- **C103.** The initial state of `cgm`: when the spin distribution falls below the cut-off before the last
spin, both parities are equally probable and the probabilities of the spins are in the ratio of the spin
distribution, up to the spin at which it falls below the cut-off. -/
theorem C103_levden (maxJ : Nat) (sd : Nat → ℝ) (cut : ℝ) (hsd : ∀ j, 0 ≤ sd j) (j0 : Nat)
    (hj : j0 < maxJ) (hcut : 2 * sd j0 < cut) (h2 : 2 < j0) (hpos : 0 < sd 0) :
    ∃ J, J ≤ j0 ∧ 2 * sd J < cut ∧ ∃ c : ℝ, 0 < c ∧ ∀ j < maxJ, ∀ p ∈ ([1, -1] : List Int),
      prob (sampleStart (popLevden maxJ sd cut)) ((j : Int), p) = ENNReal.ofReal (if j ≤ J then c * sd j else 0) := by
  obtain ⟨hd, J, h3, h4, c, hc, hpop⟩ := C33_levden_partial maxJ sd cut hsd j0 hj hcut h2 hpos
  refine ⟨J, h3, h4, c, hc, ?_⟩
  intro j hjm p hp
  have hx : (popLevden maxJ sd cut)[j]? = some (if j ≤ J then (c * sd j, c * sd j) else (0, 0)) := by
    rw [hpop, List.getElem?_map, List.getElem?_range hjm]
    rfl
  obtain ⟨ha, hb⟩ := C103_start _ hd j _ hx
  simp only [List.mem_cons, List.not_mem_nil, or_false] at hp
  rcases hp with rfl | rfl
  · rw [ha]; split <;> rfl
  · rw [hb]; split <;> rfl

end

/-! ## Examples -/

section
/-- The constants of the code. -/
theorem codeConsts : Consts (1 / 10000 : ℚ) (1 / 10 ^ 99) (1 / 20) :=
  ⟨by norm_num, by norm_num, by norm_num, by norm_num, by norm_num, by norm_num⟩

/-- Photon of energy `e`. -/
def phot (e : ℚ) : Hist ℚ := ⟨.gamma, e, ⟨0, 1, 0, 0, 0, false⟩⟩
/-- Neutron of energy `e`. -/
def neut (e : ℚ) : Hist ℚ := ⟨.neutron, e, ⟨0, 1, 0, 0, 0, false⟩⟩

/-- Two photons, one neutron. -/
example : cgm 40 30 (1 / 10000 : ℚ) (1 / 10 ^ 99) (1 / 20) [neut (61 / 50), phot (7 / 5), phot (13 / 50)]
    = .ok ([1 / 4, 7 / 5], [6 / 5]) := by decide +kernel

/-- Two photons in the same bin, a soft one and an electron: two lines for three photons. -/
example : cgm 40 30 (1 / 10000 : ℚ) (1 / 10 ^ 99) (1 / 20)
      [phot (7 / 5), phot (141 / 100), phot (1 / 50), ⟨.ic, 1, ⟨0, 1, 0, 3, 1, true⟩⟩]
    = .ok ([1, 7 / 5], []) := by decide +kernel

/-- The hypotheses of `C102_partial` hold for the first example. -/
example : InRange 40 (1 / 10000 : ℚ) (1 / 20) [neut (61 / 50), phot (7 / 5), phot (13 / 50)] ∧
    Separated 30 (1 / 10000 : ℚ) (1 / 20) (· = .gamma) [neut (61 / 50), phot (7 / 5), phot (13 / 50)] := by
  refine ⟨?_, ?_, by decide +kernel, ?_⟩
  · intro h hh
    simp only [List.mem_cons, List.not_mem_nil, or_false] at hh
    rcases hh with rfl | rfl | rfl <;> norm_num [neut, phot]
  · intro h hh _
    simp only [List.mem_cons, List.not_mem_nil, or_false] at hh
    rcases hh with rfl | rfl | rfl <;> norm_num [neut, phot]
  · have : ([neut (61 / 50), phot (7 / 5), phot (13 / 50)].filter fun h => decide (h.id = .gamma)) = [phot (7 / 5), phot (13 / 50)] := by
      decide +kernel
    rw [this]
    simp only [List.pairwise_cons, List.mem_singleton, forall_eq, List.not_mem_nil, false_imp_iff, implies_true, and_true, List.Pairwise.nil]
    intro k h1 h2
    obtain ⟨_, a1, a2, _⟩ := h1
    obtain ⟨_, b1, b2, _⟩ := h2
    norm_num [phot] at a1 a2 b1 b2
    linarith

/-- 51 photons overrun the arrays of 50 entries; the history holds 100. -/
example : recordAll 50 (List.replicate 51 (phot 1)) ⟨[], [], []⟩ = .ub :=
  C102_record_overrun 50 _ (by decide +kernel)

/-- A start: spin 0 or 1, both parities. -/
example : Law.prob (sampleStart [((1 / 4 : ℝ), 1 / 4), (3 / 8, 1 / 8)]) (1, -1) = ENNReal.ofReal (1 / 8) :=
  (C103_start _ ⟨by intro x hx; simp at hx; rcases hx with rfl | rfl <;> norm_num, by norm_num⟩ 1 (3 / 8, 1 / 8) rfl).2

end

end CGMF.Props
