import Verif.Proofs.WholeLaw

/-! # The program that watches a whole event -/

namespace CGMF.Whole

open CGMF.MC CGMF.Kin CGMF.HF CGMF.Isotropy CGMF.Law CGMF.Branching CGMF.Props CGMF.Frag MeasureTheory ProbabilityTheory

/-- The part of the event after the fragments. -/
noncomputable def decays (g : Cfg) (sl sh : Nat → ℝ) (st : St ℝ) (f : Frags ℝ PfnOut) : Rnd ℝ Event :=
  if f.x.ul ≠ 0 ∧ f.x.uh ≠ 0 then
    match f.x.spins with
    | none => Rnd.undef
    | some w => do
      let l ← emit g (lightJob g f w) f.mom.light sl st
      let h ← emit g (heavyJob g f w) f.mom.heavy sh l.1
      pure ⟨f, l.1.hs, l.2, h.1.hs, h.2⟩
  else again

theorem event_eq (g : Cfg) (v : Env ℝ PfnOut) (amu : ℝ) (t : Tab ℝ) (fuel : Nat) (a0 : Int) (c : Pre.Comp ℝ) (sl sh : Nat → ℝ) (st : St ℝ) :
    event g v amu t fuel a0 c sl sh st = pair t c.ac c.zc >>= fun p => tkeLoop v fuel a0 c p fuel >>= fun r =>
      Rnd.lift (v.mtab p.zl p.al) >>= fun ml => Rnd.lift (v.mtab p.zh p.ah) >>= fun mh =>
        decays g sl sh st ⟨p, r.2.1, r.1, (kinetic amu r.1 p ml mh).1, (kinetic amu r.1 p ml mh).2, r.2.2⟩ := by
  unfold event sample
  simp only [bind_assoc3]
  rfl

theorem decays_f {g : Cfg} {sl sh : Nat → ℝ} {st : St ℝ} {f : Frags ℝ PfnOut} {s s' : List ℝ} {x : Event}
    (h : decays g sl sh st f s = .ok (x, s')) : x.f = f := by
  unfold decays at h
  split at h
  · cases hsp : f.x.spins with
    | none =>
      rw [hsp] at h
      cases h
    | some w =>
      rw [hsp] at h
      obtain ⟨l, s1, -, h⟩ := Rnd.bind_ok.mp h
      obtain ⟨l, s1, -, h⟩ := Rnd.bind_ok.mp h
      obtain ⟨rfl, -⟩ := Rnd.pure_ok.mp h
      rfl
  · cases h

section

variable {g : Cfg} {v : Env ℝ PfnOut} {fuel : Nat} {a0 : Int} {c : Pre.Comp ℝ} {p : Pair} {E q m s e0 : ℝ} {S : Set ℝ} {N : Nat}
  {i j : Nat} {a b : Int} {ql qh : Ask} {cl ch : List (Nuc ℝ)}

/-- Sequences with which both fragments decay as asked, for given energies. -/
noncomputable def bothSets (g : Cfg) (p : Pair) (i j : Nat) (a b : Int) (ql qh : Ask) (cl ch : List (Nuc ℝ)) (x : Exc ℝ) : ℕ → Set (ℕ → ℝ) :=
  Law.followed (emitSets { g.par p.zl p.al with chain := cl } i a ql x.ul) (emitSets { g.par p.zh p.ah with chain := ch } j b qh x.uh)

open Classical in
/-- What is watched after the loop over kinetic energies. -/
noncomputable def watch (g : Cfg) (p : Pair) (S : Set ℝ) (w : ℝ × ℝ × Int × Int) (i j : Nat) (a b : Int) (ql qh : Ask) (cl ch : List (Nuc ℝ))
    (y : ℝ × Exc ℝ) : ℕ → Set (ℕ → ℝ) :=
  if y.1 ∈ S ∧ y.2.spins = some w ∧ y.2.ul ≠ 0 ∧ y.2.uh ≠ 0 then bothSets g p i j a b ql qh cl ch y.2 else fun _ => ∅

theorem watch_niceIn (h : Fits g v fuel a0 c p E e0 S N i j a b ql qh cl ch) (hS : MeasurableSet S) (w : ℝ × ℝ × Int × Int) :
    NiceIn (watch g p S w i j a b ql qh cl ch) := by
  classical
  obtain ⟨El, Eh, hl, hh, -⟩ := h.decays
  obtain ⟨Pl, Ph, tl, th, fl, fh, -⟩ := h.flights
  have hul : Measurable fun y : ℝ × Exc ℝ => y.2.ul := measurable_ul.comp measurable_snd
  have huh : Measurable fun y : ℝ × Exc ℝ => y.2.uh := measurable_uh.comp measurable_snd
  unfold watch bothSets
  refine NiceIn.ite ?_ (NiceIn.followed ((emit_niceIn hl fl a).comp hul) ((emit_niceIn hh fh b).comp huh)) (NiceIn.const nice_empty)
  exact (measurable_fst hS).inter ((measurable_snd (measurable_spins w)).inter
    ((measurableSet_eq_fun hul measurable_const).compl.inter (measurableSet_eq_fun huh measurable_const).compl))

theorem floor_spin {J : Int → Nat → ℝ} (hJ : ∀ A k, J A k = if A % 2 = 0 then (k : ℝ) else (k : ℝ) + 1 / 2) (A : Int) (k : Nat) :
    ⌊J A k⌋ = (k : Int) := by
  rw [hJ]
  split
  · simp
  · rw [Int.floor_eq_iff]
    push_cast
    constructor <;> linarith

/-- Both decays after the fragments. -/
theorem decays_at (h : Setting v a0 c p E q m s e0) (hf : Fits g v fuel a0 c p E e0 S N i j a b ql qh cl ch)
    {J : Int → Nat → ℝ} (hJ : ∀ A k, J A k = if A % 2 = 0 then (k : ℝ) else (k : ℝ) + 1 / 2) {y : ℝ × Exc ℝ × PfnOut} {l l' : List ℝ} {n : Nat}
    (hy : tkeLoop v fuel a0 c p n l = .ok (y, l')) (kl kh : ℝ) (sl sh : Nat → ℝ) {st : St ℝ} (hts : st.ts.length = N) {ω : ℕ → ℝ}
    (hω : Inside ω) (k : ℕ) :
    (∃ x, decays g sl sh st ⟨p, y.2.1, y.1, kl, kh, y.2.2⟩ (pre ω k) = .ok (x, []) ∧ x.f.tke ∈ S ∧
      x.f.x.spins = some (J p.al i, J p.ah j, a, b) ∧ ql.Shows x.hl x.l ∧ qh.Shows x.hh x.h) ↔
      ω ∈ watch g p S (J p.al i, J p.ah j, a, b) i j a b ql qh cl ch (y.1, y.2.1) k := by
  obtain ⟨he, hE, ⟨u, bl, bh, w, hsh, hx⟩, l1, l2, hb⟩ := loop_facts h fuel n hy
  by_cases hc : y.1 ∈ S ∧ y.2.1.spins = some (J p.al i, J p.ah j, a, b) ∧ y.2.1.ul ≠ 0 ∧ y.2.1.uh ≠ 0
  · have hwatch : watch g p S (J p.al i, J p.ah j, a, b) i j a b ql qh cl ch (y.1, y.2.1) = bothSets g p i j a b ql qh cl ch y.2.1 := by
      unfold watch
      rw [if_pos hc]
    rw [hwatch]
    obtain ⟨c1, c2, c3, c4⟩ := hc
    obtain ⟨El, Eh, rl, rh, hch⟩ := hf.decays
    obtain ⟨Pl, Ph, tl, th, fl, fh, hmom⟩ := hf.flights
    have u1 : y.2.1.ul = u.1 := by rw [hx]
    have u2 : y.2.1.uh = u.2 := by rw [hx]
    obtain ⟨b1, b2, b3, b4⟩ := hch y.1 c1 he hE u bl bh hsh (by rw [← u1]; exact c3) (by rw [← u2]; exact c4)
    rw [← u1] at b1 b3
    rw [← u2] at b2 b4
    obtain ⟨m1, m2⟩ := hmom y.1 c1 _ _ _ hb
    have jl : lightJob g ⟨p, y.2.1, y.1, kl, kh, y.2.2⟩ (J p.al i, J p.ah j, a, b) = ⟨g.tb, g.par p.zl p.al, p.zl, p.al, y.2.1.ul, i, a⟩ := by
      unfold lightJob
      simp only [floor_spin hJ]
    have jh : heavyJob g ⟨p, y.2.1, y.1, kl, kh, y.2.2⟩ (J p.al i, J p.ah j, a, b) = ⟨g.tb, g.par p.zh p.ah, p.zh, p.ah, y.2.1.uh, j, b⟩ := by
      unfold heavyJob
      simp only [floor_spin hJ]
    have hdec : decays g sl sh st ⟨p, y.2.1, y.1, kl, kh, y.2.2⟩ = (emit g ⟨g.tb, g.par p.zl p.al, p.zl, p.al, y.2.1.ul, i, a⟩ y.2.2.light sl st >>=
        fun l => emit g ⟨g.tb, g.par p.zh p.ah, p.zh, p.ah, y.2.1.uh, j, b⟩ y.2.2.heavy sh l.1 >>= fun h =>
          pure ⟨⟨p, y.2.1, y.1, kl, kh, y.2.2⟩, l.1.hs, l.2, h.1.hs, h.2⟩) := by
      unfold decays
      rw [if_pos ⟨c3, c4⟩]
      simp only [c2, jl, jh]
    have jrl : JobReady N ⟨g.tb, g.par p.zl p.al, p.zl, p.al, y.2.1.ul, i, a⟩ cl ql.w := ⟨b3, Ready.below rl b1⟩
    have jrh : JobReady N ⟨g.tb, g.par p.zh p.ah, p.zh, p.ah, y.2.1.uh, j, b⟩ ch qh.w := ⟨b4, Ready.below rh b2⟩
    rw [hdec]
    constructor
    · rintro ⟨x, g1, -, -, g2, g3⟩
      obtain ⟨z, k1, hk1, z1, z2⟩ := (at_bind (local_emit _ _ _ _ _) _ k ω).mp g1
      obtain ⟨z', r, z3, z4⟩ := Rnd.bind_ok.mp z2
      obtain ⟨rfl, rfl⟩ := Rnd.pure_ok.mp z4
      refine ⟨k1, hk1, (emit_at jrl fl m1 sl hω st hts k1).mp ⟨z, z1, g2⟩, ?_⟩
      exact (emit_at jrh fh m2 sh (inside_shift hω k1) z.1 (emit_ts jrl hts z1) (k - k1)).mp ⟨z', z3, g3⟩
    · rintro ⟨k1, hk1, w1, w2⟩
      obtain ⟨z, z1, g2⟩ := (emit_at jrl fl m1 sl hω st hts k1).mpr w1
      obtain ⟨z', z3, g3⟩ := (emit_at jrh fh m2 sh (inside_shift hω k1) z.1 (emit_ts jrl hts z1) (k - k1)).mpr w2
      refine ⟨⟨⟨p, y.2.1, y.1, kl, kh, y.2.2⟩, z.1.hs, z.2, z'.1.hs, z'.2⟩, (at_bind (local_emit _ _ _ _ _) _ k ω).mpr ⟨z, k1, hk1, z1, ?_⟩, c1, c2, g2, g3⟩
      exact Rnd.bind_of_ok z3
  · have hwatch : watch g p S (J p.al i, J p.ah j, a, b) i j a b ql qh cl ch (y.1, y.2.1) = fun _ => ∅ := by
      unfold watch
      rw [if_neg hc]
    rw [hwatch]
    refine ⟨?_, fun h => absurd h (Set.notMem_empty _)⟩
    rintro ⟨x, g1, g2, g3, -, -⟩
    have hxf := decays_f g1
    rw [hxf] at g2 g3
    refine absurd ⟨g2, g3, ?_⟩ hc
    unfold decays at g1
    split at g1
    · next h0 => exact h0
    · cases g1

/-- The program that watches. -/
noncomputable def watcher (g : Cfg) (v : Env ℝ PfnOut) (t : Tab ℝ) (fuel : Nat) (a0 : Int) (c : Pre.Comp ℝ) (p : Pair) (S : Set ℝ) (w : ℝ × ℝ × Int × Int)
    (i j : Nat) (a b : Int) (ql qh : Ask) (cl ch : List (Nuc ℝ)) : Rnd ℝ Unit :=
  pair t c.ac c.zc >>= fun p' => if p' = p then tkeLoop v fuel a0 c p fuel >>= fun y => ofSets (watch g p S w i j a b ql qh cl ch (y.1, y.2.1))
    else Rnd.undef

theorem watcher_at (h : Setting v a0 c p E q m s e0) (hf : Fits g v fuel a0 c p E e0 S N i j a b ql qh cl ch) (hS : MeasurableSet S)
    {J : Int → Nat → ℝ} (hJ : ∀ A k, J A k = if A % 2 = 0 then (k : ℝ) else (k : ℝ) + 1 / 2) (amu : ℝ) (t : Tab ℝ) (hd : 0 ≤ t.dZ)
    (hAm : t.amin ≤ t.amax) (hl : ∃ x, v.mtab p.zl p.al = .ok x) (hh : ∃ x, v.mtab p.zh p.ah = .ok x) (sl sh : Nat → ℝ) {st : St ℝ}
    (hts : st.ts.length = N) {ω : ℕ → ℝ} (hω : Inside ω) (k : ℕ) :
    (∃ x, event g v amu t fuel a0 c sl sh st (pre ω k) = .ok (x, []) ∧ x.f.p = p ∧ x.f.tke ∈ S ∧
      x.f.x.spins = some (J p.al i, J p.ah j, a, b) ∧ ql.Shows x.hl x.l ∧ qh.Shows x.hh x.h) ↔
      ω ∈ At (watcher g v t fuel a0 c p S (J p.al i, J p.ah j, a, b) i j a b ql qh cl ch) () k := by
  obtain ⟨xl, hl⟩ := hl
  obtain ⟨xh, hh⟩ := hh
  obtain ⟨h1, h2, _⟩ := setting_tke h
  obtain ⟨ml, mh, e1, e2, hq⟩ := h.masses
  haveI : Nonempty PfnOut := ⟨⟨[], 0, 0⟩⟩
  obtain ⟨r1, r2⟩ := loop_reg (setting_regular h) h.boost fuel h1 h2 e1 e2 fuel
  obtain ⟨p1, p2⟩ := reg_pair t hd hAm c.ac c.zc
  have hn := fun y => (watch_niceIn hf hS (J p.al i, J p.ah j, a, b)).nice y
  rw [event_eq]
  constructor
  · rintro ⟨x, g1, g2, g3⟩
    obtain ⟨p', k1, hk1, z1, z2⟩ := (at_bind p1 _ k ω).mp g1
    have hp' : p' = p := by
      obtain ⟨r, _, -, z2⟩ := Rnd.bind_ok.mp z2
      obtain ⟨_, _, -, z2⟩ := Rnd.bind_ok.mp z2
      obtain ⟨_, _, -, z2⟩ := Rnd.bind_ok.mp z2
      rw [← g2, decays_f z2]
    subst hp'
    obtain ⟨y, k2, hk2, z3, z4⟩ := (at_bind r1 _ (k - k1) _).mp z2
    have z4' : decays g sl sh st ⟨p', y.2.1, y.1, (kinetic amu y.1 p' xl xh).1, (kinetic amu y.1 p' xl xh).2, y.2.2⟩
        (pre (shift k2 (shift k1 ω)) (k - k1 - k2)) = .ok (x, []) := by
      have : ((Rnd.lift (v.mtab p'.zl p'.al) : Rnd ℝ ℝ) >>= fun ml => (Rnd.lift (v.mtab p'.zh p'.ah) : Rnd ℝ ℝ) >>= fun mh =>
        decays g sl sh st ⟨p', y.2.1, y.1, (kinetic amu y.1 p' ml mh).1, (kinetic amu y.1 p' ml mh).2, y.2.2⟩)
        (pre (shift k2 (shift k1 ω)) (k - k1 - k2)) = .ok (x, []) := z4
      rw [hl, hh] at this
      exact this
    refine (at_bind p1 _ k ω).mpr ⟨p', k1, hk1, z1, ?_⟩
    rw [if_pos rfl]
    refine (at_bind r1 _ (k - k1) _).mpr ⟨y, k2, hk2, z3, ?_⟩
    rw [at_ofSets (hn _)]
    exact (decays_at h hf hJ z3 _ _ sl sh hts (inside_shift (inside_shift hω k1) k2) _).mp ⟨x, z4', g3⟩
  · intro g1
    obtain ⟨p', k1, hk1, z1, z2⟩ := (at_bind p1 _ k ω).mp g1
    by_cases hp' : p' = p
    · subst hp'
      rw [if_pos rfl] at z2
      obtain ⟨y, k2, hk2, z3, z4⟩ := (at_bind r1 _ (k - k1) _).mp z2
      rw [at_ofSets (hn _)] at z4
      obtain ⟨x, w1, w2⟩ := (decays_at h hf hJ z3 (kinetic amu y.1 p' xl xh).1 (kinetic amu y.1 p' xl xh).2 sl sh hts
        (inside_shift (inside_shift hω k1) k2) _).mpr z4
      refine ⟨x, (at_bind p1 _ k ω).mpr ⟨p', k1, hk1, z1, ?_⟩, by rw [decays_f w1], w2⟩
      refine (at_bind r1 _ (k - k1) _).mpr ⟨y, k2, hk2, z3, ?_⟩
      show ((Rnd.lift (v.mtab p'.zl p'.al) : Rnd ℝ ℝ) >>= fun ml => (Rnd.lift (v.mtab p'.zh p'.ah) : Rnd ℝ ℝ) >>= fun mh =>
        decays g sl sh st ⟨p', y.2.1, y.1, (kinetic amu y.1 p' ml mh).1, (kinetic amu y.1 p' ml mh).2, y.2.2⟩)
        (pre (shift k2 (shift k1 ω)) (k - k1 - k2)) = .ok (x, [])
      rw [hl, hh]
      exact w1
    · rw [if_neg hp'] at z2
      cases z2

end

end CGMF.Whole
