import Verif.Proofs.Pad
import Verif.Proofs.Chain

/-! # The decay of one fragment, from the tables to the record -/

set_option linter.unusedSectionVars false

namespace CGMF.MC

open CGMF.Grid CGMF.HF

variable {K : Type} [Field K] [LinearOrder K] [IsStrictOrderedRing K]

/-- When the grid has continuum bins. -/
theorem ncont_iff {w el E : K} {N : Nat} {m : Mesh K} (hw : 0 < w) (hel : 0 ≤ el)
    (h : setup w N el E = .ok m) : m.ncont ≠ 0 ↔ StartsInContinuum w el E := by
  obtain ⟨f, f1, f2, f3, f4, f5, f6⟩ := setup_ok h
  rw [f6]
  unfold ncontOf StartsInContinuum
  by_cases h0 : el = 0
  · rw [if_pos h0]
    subst h0
    simp only [Nat.add_sub_cancel, lt_irrefl, false_and, or_false, true_and]
    constructor
    · intro hf
      have := f3 0 (by omega)
      norm_num at this
      linarith
    · intro hE hf
      subst hf
      norm_num at f2
      linarith
  · have hpos : 0 < el := lt_of_le_of_ne hel (Ne.symm h0)
    rw [if_neg h0]
    by_cases hlt : el < E
    · rw [if_pos hlt]
      have hex : ∀ k, k < f → excOf w E (f + 1) k = E - k * w := fun k hk => excOf_eq _ _ (by omega)
      have hlast : excOf w E (f + 1) f = 0 := excOf_last _ _ le_rfl
      constructor
      · intro hn
        right
        split at hn
        · rename_i k hk
          obtain ⟨k1, k2, k3, k4⟩ := find_range'_some hk
          have hk2 : 2 ≤ k := by omega
          have h1 := k4 1 le_rfl (by omega)
          simp only [decide_eq_false_iff_not, not_lt] at h1
          have hf1 : 1 < f := by omega
          rw [hex 1 hf1] at h1
          have := f3 1 hf1
          push_cast at h1 this
          exact ⟨hpos, by linarith, by linarith⟩
        · exact absurd rfl hn
      · rintro (⟨h1, -⟩ | ⟨-, h1, h2⟩)
        · exact absurd h1 h0
        · have hf1 : 1 < f := by
            by_contra hc
            have : (f : K) ≤ 1 := by
              have : f ≤ 1 := by omega
              exact_mod_cast this
            have : w * ((f : K) + 1 / 2) ≤ w * (1 + 1 / 2) :=
              mul_le_mul_of_nonneg_left (by linarith) hw.le
            linarith
          split
          · rename_i k hk
            obtain ⟨k1, k2, k3, k4⟩ := find_range'_some hk
            by_contra hc
            have : k = 1 := by omega
            subst this
            rw [hex 1 hf1] at k3
            simp at k3
            linarith
          · rename_i hk
            have := find_range'_none hk f (by omega) (by omega)
            rw [hlast] at this
            simp only [decide_eq_false_iff_not, not_lt] at this
            linarith
    · rw [if_neg hlt]
      refine ⟨fun h => absurd rfl h, ?_⟩
      rintro (⟨h1, -⟩ | ⟨-, h1, h2⟩)
      · exact absurd h1 h0
      · linarith

/-- Energies of the three kinds add up to the energies of all entries. -/
theorem energies_sum (hs : List (Hist K)) : (hs.map (·.ep)).sum =
    (energies .neutron hs).sum + (energies .gamma hs).sum + (energies .ic hs).sum := by
  induction hs with
  | nil => simp [energies]
  | cons h hs ih =>
    rw [List.map_cons, List.sum_cons, ih, energies_cons, energies_cons, energies_cons]
    rcases h with ⟨id, ep, mp⟩
    cases id <;> simp <;> ring

theorem energies_length (hs : List (Hist K)) : hs.length =
    (energies .neutron hs).length + (energies .gamma hs).length + (energies .ic hs).length := by
  induction hs with
  | nil => simp [energies]
  | cons h hs ih =>
    rw [List.length_cons, ih, energies_cons, energies_cons, energies_cons]
    rcases h with ⟨id, ep, mp⟩
    cases id <;> simp <;> omega

theorem energies_countN (hs : List (Hist K)) : (energies .neutron hs).length = countN hs := by
  simp [energies, countN]

/-- The record is the history sorted by kind. -/
theorem record_ok {nn ng ni : Nat} {st : St K} {r : Rec K} (h : record nn ng ni st = .ok r) :
    recordLoop nn ng ni st.ts 0 st.hs.dropLast ⟨[], [], []⟩ = .ok r ∧
    r.n = energies .neutron st.hs.dropLast ∧ r.g.map Prod.fst = energies .gamma st.hs.dropLast ∧
    r.ic = energies .ic st.hs.dropLast ∧ r.n.length ≤ nn ∧ r.g.length ≤ ng ∧ r.ic.length ≤ ni := by
  unfold record at h
  obtain ⟨r', h1, h2⟩ := Res.bind_eq_ok.mp h
  split at h2
  · cases h2
  · cases h2
    obtain ⟨a1, a2, a3, a4, a5, a6⟩ := recordLoop_ok h1
    simp only [List.nil_append, List.map_nil] at a1 a2 a3
    exact ⟨h1, a1, a2, a3, a4 (Nat.zero_le _), a5 (Nat.zero_le _), a6 (Nat.zero_le _)⟩

/-- Index of the nucleus along a path. -/
theorem Path.mem_n {sn : Nat → K} {a b : MCPoint K} {hs : List (Hist K)} (h : Path sn a hs b) :
    ∀ x ∈ hs, a.n ≤ x.mp.n ∧ x.mp.n ≤ b.n := by
  induction h with
  | nil => intro x hx; cases hx
  | @snoc hs b c h hp hm hst ih =>
    have hb := (Path.energy hp).1
    intro x hx
    have hc : b.n ≤ c.n := by
      rcases hst with ⟨-, h2, -⟩ | ⟨-, h2, -⟩ <;> (rw [hm] at h2; omega)
    rcases List.mem_append.mp hx with hx | hx
    · have := ih x hx; omega
    · simp only [List.mem_singleton] at hx
      subst hx
      rw [hm]; omega

/-- The whole decay. -/
theorem fragment_path {tb : Tables K} {M : Int → Int → K} (hM : ∀ z a v, tb.mx z a = .ok v → v = M z a)
    {par : Par K} {st st' : St K} {stale : Nat → K} {z a : Int} {E : K} {jint p0 : Int} {s s' : List K}
    (hw : 0 < par.w) (hel : 0 ≤ elmax (tb.levels z a))
    (h : fragment tb par st stale z a E jint p0 s = .ok (st', s')) :
    ∃ nmax hs f l start, totalNeutrons tb z a E = .ok nmax ∧ countN hs ≤ nmax ∧
      st'.hs = hs ++ [⟨.gamma, 0, levelPoint (countN hs) f l⟩] ∧
      (tb.levels z (a - countN hs))[f]? = some l ∧
      start = (hs.map (·.ep)).sum + sepSum M tb.en z a (countN hs) + l.energy ∧
      (StartsInContinuum par.w (elmax (tb.levels z a)) E → start = E) ∧
      (¬ StartsInContinuum par.w (elmax (tb.levels z a)) E → countN hs = 0 ∧
        ∃ l0 ∈ tb.levels z a, start = l0.energy) := by
  obtain ⟨nmax, chain, h1, h2, h3⟩ := fragment_ok h
  obtain ⟨hl, -, hc⟩ := initSystem_ok hM h2
  obtain ⟨n0, m0, x, hs, c, f, n, l, g1, g2, g3, g4, g5, g6, g7, g8⟩ := decay_path (initSystem_next hM h2) h3
  have hn0 : n0.levels = tb.levels z a := by
    have := (hc 0 n0 g1).2.2.1
    simpa using this
  rw [hn0] at g2
  have hiff := ncont_iff hw hel g2
  obtain ⟨e1, e2⟩ := g8.energy
  have hcc : c = countN hs := by
    have : (levelPoint c f l).n = c := rfl
    rw [this, g3] at e1; omega
  subst hcc
  have hlt : countN hs < chain.length := (List.getElem?_eq_some_iff.mp g6).1
  have hlev := (hc _ n g6).2.2.1
  have hsum := initSystem_sum hM h2 (countN hs) (by omega)
  refine ⟨nmax, hs, f, l, x.e, h1, by omega, g5, by rw [← hlev]; exact g7, ?_, ?_, ?_⟩
  · rw [e2, ← hsum]
    have : (fun i : Nat => snOf chain (x.n + i)) = fun i : Nat => snOf chain i := by
      funext i; rw [g3, Nat.zero_add]
    rw [this]
    rfl
  · intro hst
    rcases g4 with ⟨-, h, -⟩ | ⟨h, -⟩
    · exact h
    · exact absurd h (hiff.mpr hst)
  · intro hst
    rcases g4 with ⟨h, -⟩ | ⟨h0, l0, h, he⟩
    · exact absurd (hiff.mp h) hst
    · refine ⟨?_, l0, ?_, by rw [he]; rfl⟩
      · obtain ⟨m1, k1, k2, k3, k4⟩ := decay_ok h3
        have e0 : m1 = n0 := by
          have : some n0 = some m1 := g1.symm.trans k2
          cases this; rfl
        subst e0
        rw [hn0] at k3
        have e3 := g2.symm.trans k3
        cases e3
        rcases k4 with ⟨-, f', st1, k5, k6⟩ | ⟨k5, -⟩
        · obtain ⟨-, -, n', l', -, -, e'⟩ := marker_ok k6
          have : (levelPoint (K := K) 0 f' l').n = countN hs := by
            have hh : st1.hs ++ [⟨.gamma, 0, levelPoint 0 f' l'⟩] = hs ++ [⟨.gamma, 0, levelPoint (countN hs) f l⟩] := by
              rw [← g5, e']
            have := List.append_inj_right' hh rfl
            have h5 := List.cons.inj this
            have h6 := congrArg (fun q : Hist K => q.mp.n) h5.1
            exact h6
          exact this.symm
        · exact absurd h0 k5
      · rw [← hn0]; exact List.mem_of_getElem? h

end CGMF.MC
