import Verif.Proofs.Cascade

/-! # Lemmas about whole decays -/

set_option linter.unusedSectionVars false

namespace CGMF.MC

open CGMF.Grid CGMF.HF

variable {K : Type} [Field K] [LinearOrder K] [IsStrictOrderedRing K]

/-! ## Paths -/

theorem Path.energy {sn : Nat → K} {a b : MCPoint K} {hs : List (Hist K)} (h : Path sn a hs b) :
    b.n = a.n + countN hs ∧
    a.e = (hs.map (·.ep)).sum + ((List.range (countN hs)).map fun i : Nat => sn (a.n + i)).sum + b.e := by
  induction h with
  | nil => simp [countN]
  | @snoc hs b c h hp hm hst ih =>
    obtain ⟨i1, i2⟩ := ih
    rcases hst with ⟨h1, h2, h3⟩ | ⟨h1, h2, h3⟩
    · have hc : countN (hs ++ [h]) = countN hs + 1 := by simp [countN, List.filter_append, h1]
      rw [hc]
      subst hm
      refine ⟨by rw [h2, i1]; omega, ?_⟩
      rw [List.range_succ, List.map_append, List.sum_append, List.map_append, List.sum_append, i2, h3,
        i1]
      simp
      ring
    · have hc : countN (hs ++ [h]) = countN hs := by simp [countN, List.filter_append, h1]
      rw [hc]
      subst hm
      refine ⟨by rw [h2, i1], ?_⟩
      rw [List.map_append, List.sum_append, i2, h3]
      simp
      ring

/-! ## Invariants of the whole decay -/

/-- The decay stages glued together: an invariant of the continuum loop, the cascade started from its
result, and the terminal entry. -/
theorem historyLoop_ok {par : Par K} {st st' : St K} {m : MCPoint K} {s s' : List K}
    (h : historyLoop par st m s = .ok (st', s')) :
    ∃ st1 x s1 f st2, contLoop par par.cap { st with hs := [] } m s = .ok ((st1, x), s1) ∧
      ((x.k = 0 ∧ f = 0 ∧ st2 = st1 ∧ s' = s1) ∨
       (0 < x.k ∧ cascade par x.n x.k st1 s1 = .ok ((f, st2), s'))) ∧
      marker par x.n f st2 s' = .ok (st', s') := by
  unfold historyLoop at h
  rw [Rnd.bind_ok] at h
  obtain ⟨⟨st1, x⟩, s1, h1, h⟩ := h
  rw [Rnd.bind_ok] at h
  obtain ⟨⟨f, st2⟩, s2, h2, h3⟩ := h
  have e : s' = s2 := by
    unfold marker at h3
    rw [Rnd.bind_ok] at h3
    obtain ⟨n, s3, h4, h3⟩ := h3
    obtain ⟨-, rfl⟩ := Rnd.get_ok.mp h4
    rw [Rnd.bind_ok] at h3
    obtain ⟨l, s4, h5, h3⟩ := h3
    obtain ⟨-, rfl⟩ := Rnd.get_ok.mp h5
    split at h3
    · simp at h3
    · exact (Rnd.pure_ok.mp h3).2.symm
  subst e
  refine ⟨st1, x, s1, f, st2, h1, ?_, h3⟩
  unfold finish at h2
  split at h2
  · rename_i hk
    exact Or.inr ⟨hk, h2⟩
  · rename_i hk
    obtain ⟨h4, h5⟩ := Rnd.pure_ok.mp h2
    cases h4
    exact Or.inl ⟨by simpa using hk, rfl, rfl, h5.symm⟩

theorem marker_ok {par : Par K} {c f : Nat} {st st' : St K} {s s' : List K}
    (h : marker par c f st s = .ok (st', s')) :
    s' = s ∧ st.hs.length < par.cap ∧ ∃ n l, par.chain[c]? = some n ∧ n.levels[f]? = some l ∧
      st' = { st with hs := st.hs ++ [⟨.gamma, 0, levelPoint c f l⟩] } := by
  unfold marker at h
  rw [Rnd.bind_ok] at h
  obtain ⟨n, s3, h4', h⟩ := h
  obtain ⟨h4, rfl⟩ := Rnd.get_ok.mp h4'
  rw [Rnd.bind_ok] at h
  obtain ⟨l, s4, h5', h⟩ := h
  obtain ⟨h5, rfl⟩ := Rnd.get_ok.mp h5'
  split at h
  · simp at h
  · rename_i hc
    obtain ⟨h6, h7⟩ := Rnd.pure_ok.mp h
    exact ⟨h7.symm, by omega, n, l, h4, h5, h6.symm⟩

theorem cascade_ok {par : Par K} {c i : Nat} {st : St K} {s : List K} {r : (Nat × St K) × List K}
    (h : cascade par c i st s = .ok r) :
    ∃ n, par.chain[c]? = some n ∧ cascadeLoop par c n.levels (s.length + 1) i 0 st s = .ok r := by
  unfold cascade at h
  split at h
  · simp at h
  · rename_i n hn
    exact ⟨n, hn, h⟩

theorem cascade_path {par : Par K} {c i f : Nat} {st st' : St K} {s s' : List K} {a : MCPoint K}
    {n : Nuc K} {l : Level K} (hn : par.chain[c]? = some n) (hl : n.levels[i]? = some l)
    (h : cascade par c i st s = .ok ((f, st'), s'))
    (hp : Path (snOf par.chain) a st.hs (levelPoint c i l)) :
    ∃ l', n.levels[f]? = some l' ∧ Path (snOf par.chain) a st'.hs (levelPoint c f l') := by
  obtain ⟨n', hn', h⟩ := cascade_ok h
  rw [hn] at hn'
  cases hn'
  obtain ⟨t1, s1, ⟨l', hl', hp'⟩, -⟩ := cascadeLoop_ind
    (I := fun i _ st _ => ∃ l, n.levels[i]? = some l ∧ Path (snOf par.chain) a st.hs (levelPoint c i l))
    (by
      intro i t st s l t' r s1 s2 hi _ _ _ _ _ _
      exact hi)
    (by
      intro i t st s l t' r x s1 s2 b l1 ts st' hi _ hl _ _ _ hb hts hl1 hst
      obtain ⟨l0, hl0, hp⟩ := hi
      rw [hl] at hl0
      cases hl0
      exact ⟨l1, hl1, store_path hst hp (Or.inl rfl)⟩)
    _ _ _ _ _ _ _ _ ⟨l, hl, hp⟩ h
  exact ⟨l', hl', hp'⟩

theorem decay_ok {par : Par K} {st st' : St K} {E : K} {jint p0 : Int} {s s' : List K}
    (h : decay par st E jint p0 s = .ok (st', s')) :
    ∃ n0 m0, par.chain[0]? = some n0 ∧ setup par.w par.nbin (elmax n0.levels) E = .ok m0 ∧
    ((m0.ncont = 0 ∧ ∃ f st1, cascade par 0 (startLevel n0 m0 E) { st with hs := [] } s =
        .ok ((f, st1), s') ∧ marker par 0 f st1 s' = .ok (st', s')) ∨
     (m0.ncont ≠ 0 ∧ ∃ pj, fixedStart (popSingle (K := K) par.maxJ jint p0) 0 = some pj ∧
      historyLoop par { st with jmax := fun c => if c = 0 then (par.maxJ : Int) - 1 else st.jmax c }
        ⟨0, pj.1, pj.2, 0, E, false⟩ s = .ok (st', s'))) := by
  unfold decay at h
  rw [Rnd.bind_ok] at h
  obtain ⟨n0, s1, h1', h⟩ := h
  obtain ⟨h1, rfl⟩ := Rnd.get_ok.mp h1'
  rw [Rnd.bind_ok] at h
  obtain ⟨m0, s2, h2', h⟩ := h
  obtain ⟨h2, rfl⟩ := Rnd.lift_ok.mp h2'
  refine ⟨n0, m0, h1, h2, ?_⟩
  split at h
  · rename_i hc
    left
    refine ⟨hc, ?_⟩
    unfold discStart at h
    rw [Rnd.bind_ok] at h
    obtain ⟨⟨f, st1⟩, s3, h3, h4⟩ := h
    obtain ⟨rfl, -⟩ := marker_ok h4
    exact ⟨f, st1, h3, h4⟩
  · rename_i hc
    right
    refine ⟨hc, ?_⟩
    unfold contStart at h
    generalize fixedStart (popSingle (K := K) par.maxJ jint p0) 0 = o at h
    cases o with
    | none => simp at h
    | some pj => exact ⟨pj, rfl, h⟩

theorem cascade_start_level {par : Par K} {i f : Nat} {st st' : St K} {s s' : List K} {c : Nat} {n : Nuc K}
    (hn : par.chain[c]? = some n) (h : cascade par c i st s = .ok ((f, st'), s')) (hi : i ≠ 0) :
    ∃ l, n.levels[i]? = some l := by
  obtain ⟨n', hn', h⟩ := cascade_ok h
  rw [hn] at hn'; cases hn'
  rw [cascadeLoop, if_neg hi, Rnd.bind_ok] at h
  obtain ⟨l, s0, h1, h⟩ := h
  exact ⟨l, (Rnd.get_ok.mp h1).1⟩

theorem historyLoop_path {par : Par K} (hch : ChainNext par.chain) {st st' : St K} {m : MCPoint K}
    {s s' : List K} (h : historyLoop par st m s = .ok (st', s')) :
    ∃ hs c f n l, st'.hs = hs ++ [⟨.gamma, 0, levelPoint c f l⟩] ∧ par.chain[c]? = some n ∧
      n.levels[f]? = some l ∧ Path (snOf par.chain) m hs (levelPoint c f l) := by
  obtain ⟨st1, x, s1, f, st2, h1, h2, h3⟩ := historyLoop_ok h
  obtain ⟨⟨hp, hlev⟩, hd⟩ := contLoop_ind
    (I := fun st x _ => Path (snOf par.chain) m st.hs x ∧ (x.disc = true → IsLevel par.chain x ∨ x = m))
    (by
      rintro st m' s st' x s' ⟨hp, -⟩ hst
      exact ⟨contStep_path hch hst hp, fun h => Or.inl ((contStep_next hch hst).2 h)⟩)
    _ _ _ _ _ _ _ ⟨Path.nil, fun _ => Or.inr rfl⟩ h1
  have hl : IsLevel par.chain x := by
    have hx : x.disc = true → IsLevel par.chain x := by
      obtain ⟨h4, -⟩ := contLoop_ind
        (I := fun st y _ => (y = m ∧ st.hs = []) ∨ (y.disc = true → IsLevel par.chain y))
        (by
          rintro st m' s st' x s' - hst
          exact Or.inr (contStep_next hch hst).2)
        _ _ _ _ _ _ _ (Or.inl ⟨rfl, rfl⟩) h1
      rcases h4 with ⟨-, h4⟩ | h4
      · exfalso
        have : ∀ fuel (st : St K) (m : MCPoint K) s st' x s',
            contLoop par fuel st m s = .ok ((st', x), s') → st'.hs ≠ [] := by
          intro fuel
          induction fuel with
          | zero => intro st m s st' x s' h; simp [contLoop] at h
          | succ k ih =>
            intro st m s st' x s' h
            rw [contLoop, Rnd.bind_ok] at h
            obtain ⟨⟨sa, xa⟩, s1, h1, h2⟩ := h
            simp only at h2
            split at h2
            · obtain ⟨h3, -⟩ := Rnd.pure_ok.mp h2
              cases h3
              obtain ⟨n0, m0, d, pops, x1, x2, jm, s1, s2, s3, s4, s5, -, -, -, -, -, -, -, -, -, -, h8⟩ :=
                contStep_ok h1
              obtain ⟨-, -, n0, -, rfl⟩ := store_ok h8
              simp
            · exact ih _ _ _ _ _ _ h2
        exact this _ _ _ _ _ _ _ h1 h4
      · exact h4
    exact hx hd
  obtain ⟨n, l, hn, hl, hx⟩ := hl
  obtain ⟨-, -, n', l', hn', hl', rfl⟩ := marker_ok h3
  rw [hn] at hn'; cases hn'
  rcases h2 with ⟨hk, rfl, rfl, -⟩ | ⟨hk, h2⟩
  · rw [hk] at hl hx
    rw [hl] at hl'; cases hl'
    exact ⟨_, x.n, 0, n, l, rfl, hn, hl, hx ▸ hp⟩
  · obtain ⟨l2, hl2, hp2⟩ := cascade_path hn hl h2 (hx ▸ hp)
    rw [hl2] at hl'; cases hl'
    exact ⟨_, x.n, f, n, _, rfl, hn, hl2, hp2⟩

/-- Every decay is a path from its start to the terminal entry. -/
theorem decay_path {par : Par K} (hch : ChainNext par.chain) {st st' : St K} {E : K} {jint p0 : Int}
    {s s' : List K} (h : decay par st E jint p0 s = .ok (st', s')) :
    ∃ n0 m0 a hs c f n l, par.chain[0]? = some n0 ∧
      setup par.w par.nbin (elmax n0.levels) E = .ok m0 ∧ a.n = 0 ∧
      ((m0.ncont ≠ 0 ∧ a.e = E ∧ a.disc = false) ∨ (m0.ncont = 0 ∧ ∃ l0,
        n0.levels[startLevel n0 m0 E]? = some l0 ∧ a = levelPoint 0 (startLevel n0 m0 E) l0)) ∧
      st'.hs = hs ++ [⟨.gamma, 0, levelPoint c f l⟩] ∧ par.chain[c]? = some n ∧
      n.levels[f]? = some l ∧ Path (snOf par.chain) a hs (levelPoint c f l) := by
  obtain ⟨n0, m0, h1, h2, h⟩ := decay_ok h
  rcases h with ⟨hc, f, st1, h3, h4⟩ | ⟨hc, pj, h3, h4⟩
  · obtain ⟨-, -, n, l, hn, hl, rfl⟩ := marker_ok h4
    rw [h1] at hn; cases hn
    by_cases hi : startLevel n0 m0 E = 0
    · rw [hi] at h3
      obtain ⟨n', hn', h3⟩ := cascade_ok h3
      rw [cascadeLoop, if_pos rfl] at h3
      obtain ⟨h5, -⟩ := Rnd.pure_ok.mp h3
      cases h5
      exact ⟨n0, m0, levelPoint 0 0 l, [], 0, 0, n0, l, h1, h2, rfl, Or.inr ⟨hc, l, by rw [hi]; exact hl, by rw [hi]⟩,
        rfl, h1, hl, Path.nil⟩
    · obtain ⟨l0, hl0⟩ := cascade_start_level h1 h3 hi
      obtain ⟨l', hl', hp⟩ := cascade_path (a := levelPoint 0 (startLevel n0 m0 E) l0) h1 hl0 h3 Path.nil
      rw [hl'] at hl; cases hl
      exact ⟨n0, m0, _, st1.hs, 0, f, n0, _, h1, h2, rfl, Or.inr ⟨hc, l0, hl0, rfl⟩, rfl, h1, hl', hp⟩
  · obtain ⟨hs, c, f, n, l, h5, h6, h7, h8⟩ := historyLoop_path hch h4
    exact ⟨n0, m0, _, hs, c, f, n, l, h1, h2, rfl, Or.inl ⟨hc, rfl, rfl⟩, h5, h6, h7, h8⟩

/-! ## Capacity -/

theorem contLoop_length {par : Par K} {st st' : St K} {m x : MCPoint K} {s s' : List K}
    (hcap : st.hs.length < par.cap)
    (h : contLoop par par.cap st m s = .ok ((st', x), s')) : st'.hs.length < par.cap := by
  refine (contLoop_ind (I := fun st _ _ => st.hs.length < par.cap) ?_ _ _ _ _ _ _ _ hcap h).1
  intro st m s st' x s' _ hst
  obtain ⟨n0, m0, d, pops, x1, x2, jm, s1, s2, s3, s4, s5, -, -, -, -, -, -, -, -, -, -, h8⟩ := contStep_ok hst
  obtain ⟨-, hl, n0, -, rfl⟩ := store_ok h8
  simpa using hl

theorem cascade_length {par : Par K} {st st' : St K} {c i f : Nat} {s s' : List K}
    (hcap : st.hs.length < par.cap) (h : cascade par c i st s = .ok ((f, st'), s')) :
    st'.hs.length < par.cap := by
  obtain ⟨n, hn, h⟩ := cascade_ok h
  obtain ⟨t1, s1, h, -⟩ := cascadeLoop_ind (I := fun _ _ st _ => st.hs.length < par.cap)
    (by intro i t st s l t' r s1 s2 hi _ _ _ _ _ _; exact hi)
    (by
      intro i t st s l t' r x s1 s2 b l1 ts st' hi _ hl _ _ _ hb hts hl1 hst
      obtain ⟨-, hl, n0, -, rfl⟩ := store_ok hst
      simpa using hl) _ _ _ _ _ _ _ _ hcap h
  exact h

theorem decay_length {par : Par K} (hcap : 0 < par.cap) {st st' : St K} {E : K} {jint p0 : Int}
    {s s' : List K} (h : decay par st E jint p0 s = .ok (st', s')) :
    0 < st'.hs.length ∧ st'.hs.length ≤ par.cap := by
  obtain ⟨n0, m0, h1, h2, h⟩ := decay_ok h
  rcases h with ⟨hc, f, st1, h3, h4⟩ | ⟨hc, pj, h3, h4⟩
  · obtain ⟨-, hl, n, l, hn, _, rfl⟩ := marker_ok h4
    simp only [List.length_append, List.length_cons, List.length_nil]
    omega
  · obtain ⟨st1, x, s1, f, st2, g1, g2, g3⟩ := historyLoop_ok h4
    obtain ⟨-, hl, n, l, hn, _, rfl⟩ := marker_ok g3
    simp only [List.length_append, List.length_cons, List.length_nil]
    omega

end CGMF.MC
