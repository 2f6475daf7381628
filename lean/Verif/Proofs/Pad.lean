import Verif.Proofs.Safe
import Verif.Proofs.Record

/-!
# The time-stamp array only has to be as long as the history

The array `gammaTimeStamp` is shorter than the history.  A decay that succeeds with a longer array and
whose history fits the shorter one gives the same result with the shorter one.
-/

set_option linter.unusedSectionVars false

namespace CGMF.Rnd

variable {K α β γ : Type}

/-- Apply a function to the value. -/
def mapR (f : α → β) (x : Rnd K α) : Rnd K β := x >>= fun a => pure (f a)

theorem mapR_pure (f : α → β) (a : α) : mapR f (pure a : Rnd K α) = pure (f a) := rfl

theorem mapR_bind (f : β → γ) (x : Rnd K α) (g : α → Rnd K β) :
    mapR f (x >>= g) = x >>= fun a => mapR f (g a) := by
  funext s
  unfold mapR
  rw [bind_run, bind_run, bind_run]
  rcases x s with ⟨a, s'⟩ | _ | _ | _ <;> rfl

theorem mapR_undef (f : α → β) : mapR f (undef : Rnd K α) = undef := rfl
theorem mapR_stop (f : α → β) : mapR f (stop : Rnd K α) = stop := rfl

theorem mapR_ite (f : α → β) (c : Prop) [Decidable c] (x y : Rnd K α) :
    mapR f (if c then x else y) = if c then mapR f x else mapR f y := by
  split <;> rfl

theorem bind_mapR (f : α → β) (x : Rnd K α) (g : β → Rnd K γ) :
    (mapR f x >>= g) = x >>= fun a => g (f a) := by
  funext s
  unfold mapR
  rw [bind_run, bind_run, bind_run]
  rcases x s with ⟨a, s'⟩ | _ | _ | _ <;> rfl

theorem mapR_ok {f : α → β} {x : Rnd K α} {s s' : List K} {a : α} (h : x s = .ok (a, s')) :
    mapR f x s = .ok (f a, s') := by
  unfold mapR
  rw [bind_of_ok h]; rfl

end CGMF.Rnd

namespace CGMF.MC

open CGMF.Grid CGMF.HF

variable {K : Type} [Field K] [LinearOrder K] [IsStrictOrderedRing K]

/-- Replace the array. -/
def St.withTs (u : List K) (st : St K) : St K := { st with ts := u }

theorem store_ts (par : Par K) (ic : Bool) (a b : MCPoint K) (st : St K) (u : List K) :
    store par ic a b (st.withTs u) = Rnd.mapR (St.withTs u) (store par ic a b st) := by
  unfold store
  simp only [Rnd.mapR_ite, Rnd.mapR_bind, Rnd.mapR_undef, Rnd.mapR_stop, Rnd.mapR_pure]
  rfl

theorem contStep_ts (par : Par K) (st : St K) (m : MCPoint K) (u : List K) :
    contStep par (st.withTs u) m = Rnd.mapR (fun r => (r.1.withTs u, r.2)) (contStep par st m) := by
  unfold contStep
  simp only [Rnd.mapR_bind, Rnd.mapR_ite, Rnd.mapR_undef, Rnd.mapR_pure]
  congr 1; funext n0
  congr 1; funext m0
  congr 1; funext d
  split
  · rfl
  · congr 1; funext pops
    congr 1; funext x
    congr 1; funext y
    congr 1; funext z
    rw [show (St.withTs u st).jmax = st.jmax from rfl]
    have := store_ts par false m z { st with jmax := fun c => if c = m.n then pops.jmax0
      else if n0.status ∧ c = n0.next then pops.jmax1 else st.jmax c } u
    rw [← Rnd.bind_mapR (St.withTs u) _ (fun a => pure (a, z)), ← this]
    rfl

theorem contLoop_ts (par : Par K) (u : List K) : ∀ (f : Nat) (st : St K) (m : MCPoint K),
    contLoop par f (st.withTs u) m = Rnd.mapR (fun r => (r.1.withTs u, r.2)) (contLoop par f st m) := by
  intro f
  induction f with
  | zero => intro st m; rfl
  | succ f ih =>
    intro st m
    rw [contLoop, contLoop, contStep_ts, Rnd.bind_mapR, Rnd.mapR_bind]
    congr 1; funext r
    rw [Rnd.mapR_ite, ih]
    rfl

theorem cascadeLoop_grows {par : Par K} {c : Nat} {levels : List (Level K)} {f i k : Nat} {t : K}
    {st st' : St K} {s s' : List K} (h : cascadeLoop par c levels f i t st s = .ok ((k, st'), s')) :
    st.hs.length ≤ st'.hs.length := by
  obtain ⟨t1, s1, h1, -⟩ := cascadeLoop_ind (I := fun _ _ st1 _ => st.hs.length ≤ st1.hs.length)
    (by intros; assumption)
    (by
      intro i t st1 s l t' r x s1 s2 b l1 ts st' hI _ _ _ _ _ _ _ _ hst
      obtain ⟨-, -, n0, -, rfl⟩ := store_ok hst
      simp only [List.length_append, List.length_cons]
      omega)
    _ _ _ _ _ _ _ _ le_rfl h
  exact h1

theorem cascadeLoop_pad {par : Par K} {c : Nat} {levels : List (Level K)} {pad : List K} :
    ∀ (f i : Nat) (t : K) (st : St K) (s : List K) (k : Nat) (st' : St K) (s' : List K),
    cascadeLoop par c levels f i t (st.withTs (st.ts ++ pad)) s = .ok ((k, st'), s') →
    st'.hs.length ≤ st.ts.length →
    cascadeLoop par c levels f i t st s = .ok ((k, st'.withTs (st'.ts.take st.ts.length)), s') := by
  intro f
  induction f with
  | zero => intro i t st s k st' s' h; simp [cascadeLoop] at h
  | succ f ih =>
    intro i t st s k st' s' h hlen
    rw [cascadeLoop] at h ⊢
    by_cases hi : i = 0
    · rw [if_pos hi] at h ⊢
      obtain ⟨h1, rfl⟩ := Rnd.pure_ok.mp h
      cases h1
      simp [St.withTs]
    · rw [if_neg hi] at h ⊢
      rw [Rnd.bind_ok] at h
      obtain ⟨l, s1, h1, h⟩ := h
      rw [Rnd.bind_of_ok h1]
      rw [Rnd.bind_ok] at h
      obtain ⟨t', s2, h2, h⟩ := h
      rw [Rnd.bind_of_ok h2]
      by_cases hw : 0 < par.window ∧ par.window < t'
      · rw [if_pos hw] at h ⊢
        obtain ⟨h1, rfl⟩ := Rnd.pure_ok.mp h
        cases h1
        simp [St.withTs]
      · rw [if_neg hw] at h ⊢
        rw [Rnd.bind_ok] at h
        obtain ⟨r, s3, h3, h⟩ := h
        rw [Rnd.bind_of_ok h3]
        generalize hc : pickBranch r l.branches = o at h
        rcases o with _ | b
        · exact ih _ _ _ _ _ _ _ h hlen
        · simp only at h ⊢
          replace h := Rnd.bind_ok.mp h
          obtain ⟨x, s4, h4, h⟩ := h
          rw [Rnd.bind_of_ok h4]
          rw [Rnd.bind_ok] at h
          obtain ⟨ts, s5, h5', h⟩ := h
          obtain ⟨h5, rfl⟩ := Rnd.lift_ok.mp h5'
          rw [Rnd.bind_ok] at h
          obtain ⟨l1, s6, h6, h⟩ := h
          rw [Rnd.bind_ok] at h
          obtain ⟨st2, s7, h7, h⟩ := h
          have hg := cascadeLoop_grows h
          obtain ⟨-, -, n0, -, e2⟩ := store_ok h7
          have hl2 : st2.hs.length = st.hs.length + 1 := by rw [e2]; simp [St.withTs]
          have hroom : st.hs.length < st.ts.length := by omega
          have hw2 : writeAt st.ts (st.hs.length : Int) t' = .ok (st.ts.set st.hs.length t') := by
            unfold writeAt
            rw [if_pos ⟨by omega, by simpa using hroom⟩]
            simp
          have hts : ts = st.ts.set st.hs.length t' ++ pad := by
            change writeAt (st.ts ++ pad) (st.hs.length : Int) t' = .ok ts at h5
            unfold writeAt at h5
            have hb : (0 : Int) ≤ (st.hs.length : Int) ∧ ((st.hs.length : Int)).toNat < (st.ts ++ pad).length := by
              simp only [Int.toNat_natCast, List.length_append]
              omega
            rw [if_pos hb] at h5
            cases h5
            simp [List.set_append, hroom]
          have hlift : (Rnd.lift (writeAt st.ts (st.hs.length : Int) t') : Rnd K (List K)) s5 =
              .ok (st.ts.set st.hs.length t', s5) := Rnd.lift_ok.mpr ⟨hw2, rfl⟩
          rw [Rnd.bind_of_ok hlift, Rnd.bind_of_ok h6]
          have hst := store_ts par (decide (b.gratio < x)) (levelPoint c i l) (levelPoint c b.fstate l1)
            { st with ts := ts } (st.ts.set st.hs.length t')
          have h7' : store par (decide (b.gratio < x)) (levelPoint c i l) (levelPoint c b.fstate l1)
              { st with ts := st.ts.set st.hs.length t' } s6 =
              .ok (st2.withTs (st.ts.set st.hs.length t'), s7) := by
            change store par _ _ _ (({ st with ts := ts } : St K).withTs _) s6 = _
            rw [hst]
            exact Rnd.mapR_ok h7
          rw [Rnd.bind_of_ok h7']
          have key := ih b.fstate t' (st2.withTs (st.ts.set st.hs.length t')) s7 k st' s' (by
            have e3 : (st2.withTs (st.ts.set st.hs.length t')).withTs
                ((st2.withTs (st.ts.set st.hs.length t')).ts ++ pad) = st2 := by
              show st2.withTs (st.ts.set st.hs.length t' ++ pad) = st2
              rw [← hts]
              have : st2.ts = ts := by rw [e2]
              rw [← this]
              rfl
            rw [e3]; exact h) (by simpa [St.withTs] using hlen)
          rw [key]
          simp [St.withTs]

theorem cascade_pad {par : Par K} {c i : Nat} {pad : List K} {st : St K} {s : List K} {k : Nat} {st' : St K}
    {s' : List K} (h : cascade par c i (st.withTs (st.ts ++ pad)) s = .ok ((k, st'), s'))
    (hl : st'.hs.length ≤ st.ts.length) :
    cascade par c i st s = .ok ((k, st'.withTs (st'.ts.take st.ts.length)), s') := by
  obtain ⟨n, hn, h⟩ := cascade_ok h
  unfold cascade
  rw [hn]
  exact cascadeLoop_pad _ _ _ _ _ _ _ _ h hl

theorem marker_ts {par : Par K} {c f : Nat} {st st' : St K} {s s' : List K} (u : List K)
    (h : marker par c f st s = .ok (st', s')) : marker par c f (st.withTs u) s = .ok (st'.withTs u, s') := by
  obtain ⟨rfl, hl, n, l, hn, hlv, rfl⟩ := marker_ok h
  unfold marker
  rw [Rnd.bind_of_ok (Rnd.get_ok.mpr ⟨hn, rfl⟩), Rnd.bind_of_ok (Rnd.get_ok.mpr ⟨hlv, rfl⟩)]
  rw [if_neg (by simp only [St.withTs]; omega)]
  rfl

/-- The result with the longer array carries over. -/
theorem decay_pad {par : Par K} {pad : List K} {st st' : St K} {E : K} {jint p0 : Int} {s s' : List K}
    (h : decay par (st.withTs (st.ts ++ pad)) E jint p0 s = .ok (st', s'))
    (hl : st'.hs.length ≤ st.ts.length + 1) :
    ∃ st'', decay par st E jint p0 s = .ok (st'', s') ∧ st''.hs = st'.hs := by
  obtain ⟨n0, m0, h1, h2, h3⟩ := decay_ok h
  unfold decay
  rw [Rnd.bind_of_ok (Rnd.get_ok.mpr ⟨h1, rfl⟩), Rnd.bind_of_ok (Rnd.lift_ok.mpr ⟨h2, rfl⟩)]
  rcases h3 with ⟨h0, f, st1, h4, h5⟩ | ⟨h0, pj, h4, h5⟩
  · rw [if_pos h0]
    unfold discStart
    obtain ⟨-, -, n, l, -, -, e⟩ := marker_ok h5
    have hl1 : st1.hs.length ≤ st.ts.length := by rw [e] at hl; simpa using hl
    have h6 := cascade_pad (st := { st with hs := [] }) h4 hl1
    rw [Rnd.bind_of_ok h6]
    exact ⟨_, marker_ts _ h5, rfl⟩
  · rw [if_neg h0]
    unfold contStart
    rw [h4]
    simp only
    obtain ⟨st1, x, s1, f, st2, h6, h7, h8⟩ := historyLoop_ok h5
    obtain ⟨-, -, n, l, -, -, e⟩ := marker_ok h8
    have hl1 : st2.hs.length ≤ st.ts.length := by rw [e] at hl; simpa using hl
    unfold historyLoop
    set st0 : St K := { hs := [], ts := st.ts, jmax := fun c => if c = 0 then (par.maxJ : Int) - 1 else st.jmax c } with hst0
    have e6 := contLoop_ts par (st.ts ++ pad) par.cap st0 ⟨0, pj.1, pj.2, 0, E, false⟩
    have h6' : contLoop par par.cap (st0.withTs (st.ts ++ pad)) ⟨0, pj.1, pj.2, 0, E, false⟩ s =
      .ok ((st1, x), s1) := h6
    rw [e6] at h6'
    obtain ⟨⟨st3, x'⟩, s3, h9, h10⟩ := Rnd.bind_ok.mp h6'
    obtain ⟨h11, rfl⟩ := Rnd.pure_ok.mp h10
    cases h11
    rw [Rnd.bind_of_ok h9]
    have ht3 : st3.ts = st.ts := by
      have := (contLoop_ind (I := fun st1 _ _ => st1.ts = st.ts) (by
        intro st m s st' x s' hI hst
        obtain ⟨n0, m0, d, pops, x1, x2, jm, s1, s2, s3, s4, s5, -, -, -, -, -, -, -, -, -, -, h8⟩ := contStep_ok hst
        obtain ⟨-, hl, n0, -, rfl⟩ := store_ok h8
        exact hI) _ _ _ _ _ _ _ (by rw [hst0]) h9).1
      exact this
    rcases h7 with ⟨k0, rfl, rfl, rfl⟩ | ⟨k0, h7⟩
    · have hf : finish par x' st3 s' = .ok ((0, st3), s') := by
        unfold finish
        have k1 : x'.k = 0 := k0
        rw [if_neg (by omega)]; rfl
      rw [Rnd.bind_of_ok hf]
      have := marker_ts st.ts h8
      have e : (st3.withTs (st.ts ++ pad)).withTs st.ts = st3 := by
        show st3.withTs st.ts = st3
        rw [← ht3]; rfl
      rw [e] at this
      exact ⟨_, this, rfl⟩
    · rw [← ht3] at h7
      have h12 := cascade_pad h7 (by rw [ht3]; exact hl1)
      have hf : finish par x' st3 s3 = .ok ((f, st2.withTs (st2.ts.take st3.ts.length)), s') := by
        unfold finish
        rw [if_pos (by simpa using k0)]; exact h12
      rw [Rnd.bind_of_ok hf]
      exact ⟨_, marker_ts _ h8, rfl⟩

end CGMF.MC
