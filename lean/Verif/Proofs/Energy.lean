import Verif.Proofs.Terminate
import Verif.Proofs.HF
import Verif.Props.Grid

/-! # Emitted energies are non-negative -/

set_option linter.unusedSectionVars false

namespace CGMF.MC

open CGMF.Grid CGMF.HF CGMF.Props

variable {K : Type} [Field K] [LinearOrder K] [IsStrictOrderedRing K]

theorem LevelsOK.le_elmax {levels : List (Level K)} (h : LevelsOK levels) {l : Level K} {i : Nat}
    (hl : levels[i]? = some l) : l.energy ≤ elmax levels := by
  unfold elmax
  cases hg : levels.getLast? with
  | none => exact absurd (List.getLast?_eq_none_iff.mp hg) h.ne
  | some t =>
    rw [List.getLast?_eq_getElem?] at hg
    have hi : i < levels.length := (List.getElem?_eq_some_iff.mp hl).1
    exact h.sorted i (levels.length - 1) l t (by omega) hl hg

theorem LevelsOK.elmax_nonneg {levels : List (Level K)} (h : LevelsOK levels) : 0 ≤ elmax levels := by
  unfold elmax
  cases hg : levels.getLast? with
  | none => exact le_rfl
  | some t => exact h.nonneg t (List.mem_of_getLast? hg)

/-- Facts about the grid used below. -/
theorem mesh_facts {w el E : K} (hw : 0 < w) (hel : 0 ≤ el) {N : Nat} {m : Mesh K}
    (h : setup w N el E = .ok m) :
    (0 < m.ncont → m.exc 0 = E ∧ (∀ k, m.exc k ≤ E) ∧ (∀ k ≤ m.ncont, el ≤ m.exc k) ∧
      ∀ k, m.exc (k + 1) ≤ m.exc k) ∧
    (m.exc 0 = E ∨ (E < w / 2 ∧ m.exc 0 = 0)) := by
  rcases lt_or_ge E (w / 2) with hE | hE
  · obtain ⟨f, f1, -⟩ := setup_ok h
    obtain ⟨m', h1, h2, h3, h4⟩ := C25_low_energy w hw N (by omega) E el hE hel
    rw [h] at h1
    cases h1
    exact ⟨fun hc => by omega, Or.inr ⟨hE, h4 0⟩⟩
  · rcases C25_grid w hw N E el hE hel with ⟨h1, -⟩ | ⟨m', h1, -, g1, g2, g3, g4, g5, g6, g7, g8, -, -⟩
    · rw [h] at h1; cases h1
    · rw [h] at h1
      cases h1
      obtain ⟨f, f1, f2, f3, f4, f5, f6⟩ := setup_ok h
      have hz : ∀ k, m.ntotal ≤ k + 1 → m.exc k = 0 := by
        intro k hk
        rw [f5]
        exact excOf_last _ _ (by omega)
      refine ⟨fun hc => ⟨g4, ?_, fun k hk => g8 k hk hc, ?_⟩, Or.inl g4⟩
      · intro k
        rcases Nat.lt_or_ge (k + 1) m.ntotal with hk | hk
        · rw [(g5 k hk).1]
          have : (0 : K) ≤ (k : K) * w := mul_nonneg (Nat.cast_nonneg k) hw.le
          linarith
        · rw [hz k hk]; linarith
      · intro k
        rcases Nat.lt_or_ge (k + 1) m.ntotal with hk | hk
        · exact (g6 k hk).le
        · rw [hz k hk, hz (k + 1) (by omega)]

theorem perturb_range {w el E : K} (hw : 0 < w) (hel : 0 ≤ el) {N : Nat} {n : Nuc K} {m : Mesh K}
    (hm : setup w N el E = .ok m) (hn : el = elmax n.levels) {x y : MCPoint K} {s s' : List K}
    (hx : x.disc = false) (hk : x.k < m.ncont) (he : x.e = m.exc x.k) (hr : ∀ r ∈ s, 0 ≤ r ∧ r ≤ 1)
    (h : perturb n m x s = .ok (y, s')) : el ≤ y.e ∧ y.e ≤ E := by
  rcases perturb_ok h with ⟨h1, -⟩ | ⟨-, top, r, ht, rfl, rfl⟩
  · rw [hx] at h1; cases h1
  · obtain ⟨hr0, hr1⟩ := hr r (by simp)
    have htop : top.energy = el := by rw [hn]; unfold elmax; rw [ht]
    obtain ⟨⟨g0, g1, g2, g3⟩, -⟩ := (mesh_facts hw hel hm).imp (fun h => h (by omega)) id
    simp only [htop]
    have hcast : ∀ a b : K, (a + b) * (1 / 2) = (a + b) / 2 := by intro a b; ring
    simp only [hcast]
    generalize hemax : (if x.k = 0 then x.e else (m.exc (x.k - 1) + m.exc x.k) / 2) = emax
    have h1 : m.exc x.k ≤ emax ∧ emax ≤ E ∧ el ≤ emax := by
      rw [← hemax]
      split
      · rename_i hk0
        rw [he]
        exact ⟨le_rfl, g1 _, g2 _ (by omega)⟩
      · rename_i hk0
        have a1 := g3 (x.k - 1)
        have a2 := g1 (x.k - 1)
        have a3 := g1 x.k
        have a4 := g2 x.k (by omega)
        rw [show x.k - 1 + 1 = x.k by omega] at a1
        refine ⟨by linarith, by linarith, by linarith⟩
    have h2 := g3 x.k
    generalize hemin : (if (m.exc (x.k + 1) + m.exc x.k) / 2 < el then el
      else (m.exc (x.k + 1) + m.exc x.k) / 2) = emin
    have h3 : el ≤ emin ∧ emin ≤ emax := by
      rw [← hemin]
      split
      · exact ⟨le_rfl, h1.2.2⟩
      · rename_i hlt
        exact ⟨not_lt.mp hlt, by linarith⟩
    have h4 : 0 ≤ (emax - emin) * r := mul_nonneg (by linarith) hr0
    have h5 : (emax - emin) * r ≤ (emax - emin) * 1 := mul_le_mul_of_nonneg_left hr1 (by linarith)
    constructor <;> linarith

/-- A stronger induction principle: the loop body only ever runs on continuum points. -/
theorem contLoop_ind' {par : Par K} (I : St K → MCPoint K → List K → Prop) :
    (∀ st m s st' x s', I st m s → m.disc = false → contStep par st m s = .ok ((st', x), s') → I st' x s') →
    ∀ fuel st m s st' x s', I st m s → m.disc = false → contLoop par fuel st m s = .ok ((st', x), s') →
      I st' x s' ∧ x.disc = true := by
  intro hstep fuel
  induction fuel with
  | zero => intro st m s st' x s' _ _ h; simp [contLoop] at h
  | succ f ih =>
    intro st m s st' x s' hi hm h
    rw [contLoop, Rnd.bind_ok] at h
    obtain ⟨r, s1, h1, h2⟩ := h
    obtain ⟨st1, x1⟩ := r
    have hi1 := hstep _ _ _ _ _ _ hi hm h1
    simp only at h2
    split at h2
    · rename_i hd
      obtain ⟨h3, rfl⟩ := Rnd.pure_ok.mp h2
      cases h3
      exact ⟨hi1, hd⟩
    · rename_i hd
      exact ih _ _ _ _ _ _ hi1 (by simpa using hd) h2

/-- A continuum point lies above the discrete levels of its nucleus. -/
def AboveLevels (chain : List (Nuc K)) (x : MCPoint K) : Prop :=
  x.disc = false → ∀ n, chain[x.n]? = some n → elmax n.levels ≤ x.e

theorem contStep_suffix {par : Par K} {st : St K} {m : MCPoint K} {s s' : List K}
    {r : St K × MCPoint K} (h : contStep par st m s = .ok (r, s')) : s' <:+ s := by
  obtain ⟨L, hL⟩ : ∃ L, LevelsAtMost par.chain L := by
    refine ⟨(par.chain.map (·.levels.length)).sum, ?_⟩
    intro n hn
    exact List.le_sum_of_mem (List.mem_map.mpr ⟨n, hn, rfl⟩)
  exact ((contStep_needs hL st m s).2 _ _ h).2

/-- Where the next state lies relative to the energy budget. -/
theorem contStep_energy {par : Par K} (hw : 0 < par.w) (hch : ChainNext par.chain)
    (hlv : ChainLevels par.chain) {st st' : St K} {m x : MCPoint K} {s s' : List K}
    (hr : ∀ r ∈ s, 0 ≤ r ∧ r ≤ 1)
    (hm : m.disc = false) (hab : AboveLevels par.chain m)
    (h : contStep par st m s = .ok ((st', x), s')) :
    AboveLevels par.chain x ∧ ∃ hst, st'.hs = st.hs ++ [hst] ∧ 0 ≤ hst.ep := by
  obtain ⟨n0, m0, d, pops, x1, x2, jm, s1, s2, s3, s4, s5, h1, h2, h3, -, -, h4, h5, h6, h7, -, h8⟩ :=
    contStep_ok h
  have hn0 : LevelsOK n0.levels := hlv n0 (List.mem_of_getElem? h1)
  have hE : elmax n0.levels ≤ m.e := hab hm n0 h1
  have hE0 : 0 ≤ m.e := hn0.elmax_nonneg.trans hE
  have mf0 := mesh_facts hw hn0.elmax_nonneg h2
  obtain ⟨rfl, hd⟩ := daughter_ok h3
  have hr2 : ∀ r ∈ s3, 0 ≤ r ∧ r ≤ 1 := by
    have e1 := ((compoundDecay_needs _ _ _ _ _ _ _ _ _ _ _ _).2 _ _ h4).2
    have e2 := ((findNext_needs _ _ _ _ _ _ _ _ _).2 _ _ h5).2
    exact fun r h => hr r (e1.subset (e2.subset h))
  -- the state after the perturbation
  have key : (x2.n = m.n ∧ x2.e ≤ m.e ∧ AboveLevels par.chain x2) ∨
      (x2.n = m.n + 1 ∧ x2.e ≤ m.e - n0.sn ∧ AboveLevels par.chain x2) := by
    obtain ⟨p1, p2, p3, p5, p4⟩ := perturb_keeps h6
    have lev : ∀ c (l : Level K) i, x1 = levelPoint c i l → x2 = x1 := fun c l i e => p4 (by rw [e]; rfl)
    rcases findNext_ok h5 with ⟨c, hcm, hc⟩ | ⟨c, r, l1, l2, hs, hcm, hcand, hr1, hr2', hc⟩ | ⟨i, l, hl, hx1⟩
    · left
      obtain ⟨hn, hh⟩ := cellPoint_cases hc
      rcases hh with ⟨k, idx, ev, rfl, hx1⟩ | ⟨i, l, rfl, hl, hx1⟩
      · rw [mem_cells] at hcm
        simp only at hcm
        have hside : side m x1 (n0, m0) d = (n0, m0) := by unfold side; rw [if_pos hn.symm]
        rw [hside] at h6
        have hp := perturb_range hw hn0.elmax_nonneg h2 rfl (x := x1) (by rw [hx1]) (by rw [hx1]; exact hcm.2.1)
          (by rw [hx1]) hr2 h6
        refine ⟨by rw [p1, hn], hp.2, ?_⟩
        intro _ n hn'
        rw [p1, hn, h1] at hn'
        cases hn'
        exact hp.1
      · have e := lev _ _ _ hx1
        refine ⟨by rw [p1, hn], ?_, ?_⟩
        · rw [e, hx1]; exact (hn0.le_elmax hl).trans hE
        · intro hdisc; rw [e, hx1] at hdisc; cases hdisc
    · right
      obtain ⟨hn, hh⟩ := cellPoint_cases hc
      have hnx := hch m.n n0 h1 hs
      rcases hd with ⟨-, hd1, hd2⟩ | ⟨hf, -⟩
      · have hn1 : LevelsOK d.1.levels := hlv d.1 (List.mem_of_getElem? hd1)
        rcases hh with ⟨k, idx, ev, rfl, hx1⟩ | ⟨i, l, rfl, hl, hx1⟩
        · rw [mem_cells] at hcm
          simp only at hcm
          have hside : side m x1 (n0, m0) d = d := by unfold side; rw [if_neg (by omega)]
          rw [hside] at h6
          have hp := perturb_range hw hn1.elmax_nonneg hd2 rfl (x := x1) (by rw [hx1])
            (by rw [hx1]; exact hcm.2.1) (by rw [hx1]) hr2 h6
          refine ⟨by rw [p1, hn, hnx], hp.2, ?_⟩
          intro _ n hn'
          rw [p1, hn, hd1] at hn'
          cases hn'
          exact hp.1
        · have e := lev _ _ _ hx1
          refine ⟨by rw [p1, hn, hnx], ?_, ?_⟩
          · -- the population of this level is positive, so the channel is open
            have hl1 : l1 ≠ [] := by
              rintro rfl
              unfold candidates at hcand
              rw [List.nil_append] at hcand
              have hcells : (.disc 0 : Cell) ∈ cells 1 m0.ncont pops.jmax0 n0.levels.length := by
                rw [mem_cells]
                exact List.length_pos_of_ne_nil hn0.ne
              cases hcs : cells 1 m0.ncont pops.jmax0 n0.levels.length with
              | nil => rw [hcs] at hcells; cases hcells
              | cons c cs =>
                rw [hcs] at hcand
                simp only [List.map_cons, List.cons_append, List.cons.injEq, Prod.mk.injEq] at hcand
                exact Bool.noConfusion hcand.1.1.1
            have hpos : popOf pops.n (.disc i) ≠ 0 := by
              have := hr2' hl1
              intro h0
              rw [h0] at hr1
              linarith
            obtain ⟨nt, hnt, -, -, hcc⟩ := compoundDecay_ok h4
            have hnt' : ∃ y, (Cell.disc i, y) ∈ nt := by
              rcases hcc with ⟨-, i', -, -, -, hnn⟩ | ⟨-, -, -, hnn⟩
              · rw [hnn, popOf_nil] at hpos; exact absurd rfl hpos
              · rw [hnn, popOf_scale] at hpos
                exact popOf_ne_zero (left_ne_zero_of_mul hpos)
            obtain ⟨y, hy⟩ := hnt'
            rw [hnt] at hy
            split at hy
            · rcases mem_neutronTerms.mp hy with ⟨k, -, -, -, hq⟩ | ⟨i', lev', g1, g2, -, hq⟩
              · obtain ⟨_, _, _, _, _, e'⟩ := mem_parCont.mp hq
                cases e'
              · obtain ⟨_, _, _, _, _, _, e'⟩ := mem_parDisc.mp hq
                cases e'
                rw [hl] at g1
                cases g1
                rw [e, hx1]
                show l.energy ≤ m.e - n0.sn
                rcases mf0.2 with he | ⟨-, he⟩ <;> rw [he] at g2 <;> linarith
            · cases hy
          · intro hdisc; rw [e, hx1] at hdisc; cases hdisc
      · rw [hf] at hs; cases hs
    · left
      have e := lev _ _ _ hx1
      refine ⟨by rw [e, hx1]; rfl, ?_, ?_⟩
      · rw [e, hx1]; exact (hn0.le_elmax hl).trans hE
      · intro hdisc; rw [e, hx1] at hdisc; cases hdisc
  have key2 : (x.n = m.n ∧ x.e ≤ m.e ∧ AboveLevels par.chain x) ∨
      (x.n = m.n + 1 ∧ x.e ≤ m.e - n0.sn ∧ AboveLevels par.chain x) := by
    rcases lowCut_ok h7 with rfl | ⟨-, i, l, hl, rfl⟩
    · exact key
    · left
      exact ⟨rfl, (hn0.le_elmax hl).trans hE, fun hdisc => by cases hdisc⟩
  obtain ⟨-, -, n0', g1, rfl⟩ := store_ok h8
  rw [h1] at g1
  cases g1
  rcases key2 with ⟨k1, k2, k3⟩ | ⟨k1, k2, k3⟩
  · refine ⟨k3, _, rfl, ?_⟩
    rw [if_pos k1.symm]
    show 0 ≤ m.e - x.e
    linarith
  · refine ⟨k3, _, rfl, ?_⟩
    rw [if_neg (by omega)]
    show 0 ≤ m.e - x.e - n0.sn
    linarith

theorem contLoop_energy {par : Par K} (hw : 0 < par.w) (hch : ChainNext par.chain)
    (hlv : ChainLevels par.chain) {st st' : St K} {m x : MCPoint K} {s s' : List K} {f : Nat}
    (hr : ∀ r ∈ s, 0 ≤ r ∧ r ≤ 1) (hm : m.disc = false) (hab : AboveLevels par.chain m)
    (hst : ∀ h ∈ st.hs, 0 ≤ h.ep) (h : contLoop par f st m s = .ok ((st', x), s')) :
    (∀ h ∈ st'.hs, 0 ≤ h.ep) := by
  refine (contLoop_ind' (I := fun st m s => (∀ r ∈ s, 0 ≤ r ∧ r ≤ 1) ∧ AboveLevels par.chain m ∧
    ∀ h ∈ st.hs, 0 ≤ h.ep) ?_ _ _ _ _ _ _ _ ⟨hr, hab, hst⟩ hm h).1.2.2
  rintro st m s st' x s' ⟨i1, i2, i3⟩ hm hs
  obtain ⟨e1, hst, e2, e3⟩ := contStep_energy hw hch hlv i1 hm i2 hs
  refine ⟨fun r hr => i1 r ((contStep_suffix hs).subset hr), e1, ?_⟩
  intro h hh
  rw [e2] at hh
  rcases List.mem_append.mp hh with hh | hh
  · exact i3 h hh
  · rw [List.mem_singleton] at hh; subst hh; exact e3

theorem cascade_energy {par : Par K} (hlv : ChainLevels par.chain) {c i f : Nat} {st st' : St K}
    {s s' : List K} (hst : ∀ h ∈ st.hs, 0 ≤ h.ep) (h : cascade par c i st s = .ok ((f, st'), s')) :
    (∀ h ∈ st'.hs, 0 ≤ h.ep) := by
  obtain ⟨n, hn, h⟩ := cascade_ok h
  have hl := hlv n (List.mem_of_getElem? hn)
  obtain ⟨t1, s1, h, -⟩ := cascadeLoop_ind (I := fun _ _ st _ => ∀ h ∈ st.hs, 0 ≤ h.ep)
    (by intro i t st s l t' r s1 s2 hi _ _ _ _ _ _; exact hi)
    (by
      intro i t st s l t' r x s1 s2 b l1 ts st' hi _ hl' _ _ _ hb hts hl1 hst
      obtain ⟨-, -, n0, -, rfl⟩ := store_ok hst
      intro h hh
      rcases List.mem_append.mp hh with hh | hh
      · exact hi h hh
      · rw [List.mem_singleton] at hh
        subst hh
        rw [if_pos (show (levelPoint c i l).n = (levelPoint c b.fstate l1).n from rfl)]
        show 0 ≤ l.energy - l1.energy
        obtain ⟨y, hy⟩ := firstReach_mem hb
        obtain ⟨b', hb', e⟩ := List.mem_map.mp hy
        cases e
        have := hl.sorted _ _ _ _ (hl.down i l hl' _ hb') hl1 hl'
        linarith) _ _ _ _ _ _ _ _ hst h
  exact h

theorem decay_energy {par : Par K} (hw : 0 < par.w) (hch : ChainNext par.chain)
    (hlv : ChainLevels par.chain) {st st' : St K} {E : K} {jint p0 : Int} {s s' : List K}
    (hr : ∀ r ∈ s, 0 ≤ r ∧ r ≤ 1) (h : decay par st E jint p0 s = .ok (st', s')) :
    ∀ h ∈ st'.hs, 0 ≤ h.ep := by
  obtain ⟨n0, m0, h1, h2, h⟩ := decay_ok h
  have hl0 := hlv n0 (List.mem_of_getElem? h1)
  have fin : ∀ (st1 : St K) (c f : Nat), (∀ h ∈ st1.hs, 0 ≤ h.ep) → marker par c f st1 s' = .ok (st', s') →
      ∀ h ∈ st'.hs, 0 ≤ h.ep := by
    intro st1 c f hh hm h hmem
    obtain ⟨-, hl, n, l, hn, _, rfl⟩ := marker_ok hm
    rcases List.mem_append.mp hmem with hmem | hmem
    · exact hh _ hmem
    · rw [List.mem_singleton] at hmem; subst hmem; exact le_rfl
  rcases h with ⟨hc, f, st1, h3, h4⟩ | ⟨hc, pj, h3, h4⟩
  · exact fin st1 0 f (cascade_energy hlv (by simp) h3) h4
  · obtain ⟨st1, x, s1, f, st2, g1, g2, g3⟩ := historyLoop_ok h4
    have hE : elmax n0.levels ≤ E := by
      have mf := (mesh_facts hw hl0.elmax_nonneg h2).1 (Nat.pos_of_ne_zero hc)
      have := mf.2.2.1 0 (by omega)
      rw [mf.1] at this
      exact this
    have e1 := contLoop_energy hw hch hlv hr rfl (by
      intro _ n hn
      change par.chain[0]? = some n at hn
      rw [h1] at hn
      cases hn
      exact hE) (by simp) g1
    refine fin st2 x.n f ?_ g3
    rcases g2 with ⟨-, -, rfl, -⟩ | ⟨-, g2⟩
    · exact e1
    · exact cascade_energy hlv e1 g2

end CGMF.MC
