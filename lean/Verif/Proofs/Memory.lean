import Verif.Spec.Memory
import Verif.Tactics

/-! Ownership of blocks: `Does ps m Q` says that `m`, started with the blocks `ps` (and any others, which it leaves alone), returns a value
`a` and leaves blocks `qs` with `Q a qs`. -/

namespace CGMF.Mem
open CGMF

def Does {α : Type} (ps : List Nat) (m : M α) (Q : α → List Nat → Prop) : Prop :=
  ∀ (h : Life.Heap) (r : List Nat), h.live.Perm (ps ++ r) →
    ∃ a h' qs, m h = .ok (a, h') ∧ Q a qs ∧ h'.live.Perm (qs ++ r)

theorem Does.bind {α β : Type} {ps : List Nat} {m : M α} {k : α → M β} {Q : α → List Nat → Prop} {R : β → List Nat → Prop}
    (hm : Does ps m Q) (hk : ∀ a qs, Q a qs → Does qs (k a) R) : Does ps (m >>= k) R := by
  intro h r hp
  obtain ⟨a, h', qs, e, hq, hp'⟩ := hm h r hp
  obtain ⟨b, h'', qs', e', hr, hp''⟩ := hk a qs hq h' r hp'
  refine ⟨b, h'', qs', ?_, hr, hp''⟩
  show (m h).bind (fun x => k x.1 x.2) = _
  rw [e]; exact e'

theorem Does.pure {α : Type} {ps : List Nat} {a : α} {Q : α → List Nat → Prop} (hq : Q a ps) : Does ps (Pure.pure a : M α) Q :=
  fun h _ hp => ⟨a, h, ps, rfl, hq, hp⟩

theorem Does.perm {α : Type} {ps ps' : List Nat} {m : M α} {Q : α → List Nat → Prop} (hp : ps.Perm ps') (hm : Does ps' m Q) :
    Does ps m Q := fun h r hl => hm h r (hl.trans (hp.append_right r))

theorem Does.weaken {α : Type} {ps : List Nat} {m : M α} {Q R : α → List Nat → Prop} (hm : Does ps m Q)
    (hq : ∀ a qs, Q a qs → R a qs) : Does ps m R := by
  intro h r hp
  obtain ⟨a, h', qs, e, h1, h2⟩ := hm h r hp
  exact ⟨a, h', qs, e, hq _ _ h1, h2⟩

theorem does_new (ps : List Nat) : Does ps new (fun p qs => ∃ n, p = .to n ∧ qs = n :: ps) :=
  fun h r hp => ⟨_, _, _, rfl, ⟨_, rfl, rfl⟩, (by
    show (h.next :: h.live).Perm (h.next :: ps ++ r)
    exact hp.cons _)⟩

theorem does_news (n : Nat) (ps : List Nat) :
    Does ps (news n) (fun l qs => ∃ ns : List Nat, l = ns.map .to ∧ ns.length = n ∧ qs.Perm (ns ++ ps)) := by
  induction n generalizing ps with
  | zero => exact Does.pure ⟨[], rfl, rfl, .refl _⟩
  | succ n ih =>
    refine (does_new ps).bind ?_
    rintro _ _ ⟨k, rfl, rfl⟩
    refine (ih (k :: ps)).bind ?_
    rintro _ _ ⟨ns, rfl, hl, hp⟩
    refine Does.pure ⟨k :: ns, rfl, by simp [hl], hp.trans ?_⟩
    exact List.perm_middle

theorem does_del {ps qs : List Nat} {n : Nat} (hp : ps.Perm (n :: qs)) : Does ps (del (.to n)) (fun _ r => r = qs) := by
  intro h r hl
  have hmem : n ∈ h.live := by rw [hl.mem_iff, List.mem_append, hp.mem_iff]; simp
  refine ⟨(), { h with live := h.live.erase n }, qs, ?_, rfl, ?_⟩
  · show (h.free n).bind _ = _
    unfold Life.Heap.free
    rw [if_pos hmem]; rfl
  · show (h.live.erase n).Perm (qs ++ r)
    have h1 : h.live.Perm (n :: (qs ++ r)) := hl.trans (hp.append_right r)
    have h2 := h1.erase n
    rwa [List.erase_cons_head] at h2

theorem does_dels {ns : List Nat} {ps qs : List Nat} (hp : ps.Perm (ns ++ qs)) :
    Does ps (dels (ns.map .to)) (fun _ r => r.Perm qs) := by
  induction ns generalizing ps with
  | nil => exact Does.pure hp
  | cons n ns ih =>
    refine (does_del hp).bind ?_
    rintro _ _ rfl
    exact ih (.refl _)

theorem does_use {ps : List Nat} {n : Nat} (hn : n ∈ ps) : Does ps (use (.to n)) (fun _ r => r = ps) := by
  intro h r hl
  have hmem : n ∈ h.live := by rw [hl.mem_iff, List.mem_append]; exact Or.inl hn
  refine ⟨(), h, ps, ?_, rfl, hl⟩
  show (h.deref (some n)).bind _ = _
  show (if n ∈ h.live then Res.ok () else Res.ub).bind _ = _
  rw [if_pos hmem]; rfl

theorem does_uses {ps ns : List Nat} (hn : ∀ n ∈ ns, n ∈ ps) : Does ps (uses (ns.map .to)) (fun _ r => r = ps) := by
  induction ns with
  | nil => exact Does.pure rfl
  | cons n ns ih =>
    refine (does_use (hn n (by simp))).bind ?_
    rintro _ _ rfl
    exact ih fun k hk => hn k (by simp [hk])

theorem does_delIf {ps qs : List Nat} {n : Nat} (hp : ps.Perm (n :: qs)) : Does ps (delIf (.to n)) (fun _ r => r = qs) := by
  have : delIf (.to n) = del (.to n) := rfl
  rw [this]; exact does_del hp

/-- A call that returns what it takes. -/
def Neutral {α : Type} (m : M α) : Prop := ∀ ps, Does ps m (fun _ r => r.Perm ps)

theorem Neutral.bind {α β : Type} {m : M α} {k : α → M β} (hm : Neutral m) (hk : ∀ a, Neutral (k a)) : Neutral (m >>= k) :=
  fun ps => (hm ps).bind fun a qs hq => ((hk a qs).weaken fun _ _ h => h.trans hq)

theorem neutral_pure {α : Type} (a : α) : Neutral (Pure.pure a : M α) := fun _ => Does.pure (.refl _)

theorem neutral_omCalc (b : Bool) : Neutral (omCalc b) := by
  intro ps
  cases b
  · exact Does.pure (.refl _)
  · show Does ps (news 8 >>= fun l => dels l) _
    refine (does_news 8 ps).bind ?_
    rintro _ qs ⟨ns, rfl, -, hp⟩
    exact does_dels hp

theorem neutral_transmission (bs : List Bool) : Neutral (transmission bs) := by
  induction bs with
  | nil => exact neutral_pure _
  | cons b bs ih => exact (neutral_omCalc b).bind fun _ => ih

/-- Rearrangement of lists. -/
macro "rearrange" : tactic =>
  `(tactic| (simp only [List.perm_iff_count, List.count_append, List.count_cons, List.count_nil] at *; intro a; grind))

theorem neutral_spectraBinary (s : Step) : Neutral (spectraBinary s) := by
  intro ps
  refine (does_new ps).bind ?_
  rintro _ _ ⟨tc, rfl, rfl⟩
  refine (does_new _).bind ?_
  rintro _ _ ⟨td, rfl, rfl⟩
  refine (does_news 2500 _).bind ?_
  rintro _ q1 ⟨tcs, rfl, -, h1⟩
  refine (does_news 200 _).bind ?_
  rintro _ q2 ⟨tds, rfl, -, h2⟩
  refine (does_news 3 _).bind ?_
  rintro _ q3 ⟨tg, rfl, -, h3⟩
  refine (neutral_transmission s.bins _).bind ?_
  rintro _ q4 h4
  refine (neutral_transmission s.levels _).bind ?_
  rintro _ q5 h5
  have h6 : q5.Perm (tcs ++ (tds ++ (tg ++ (tc :: td :: ps)))) := by rearrange
  refine (does_dels h6).bind ?_
  rintro _ q7 h7
  refine (does_dels h7).bind ?_
  rintro _ q8 h8
  refine (does_dels h8).bind ?_
  rintro _ q9 h9
  refine (does_del h9).bind ?_
  rintro _ _ rfl
  exact (does_del (.refl _)).weaken fun _ _ e => e ▸ .refl _

theorem neutral_excitonModel : Neutral excitonModel := by
  intro ps
  refine (does_news 2 _).bind ?_
  rintro _ q1 ⟨a, rfl, -, h1⟩
  refine (does_news 48 _).bind ?_
  rintro _ q2 ⟨b, rfl, -, h2⟩
  have h3 : q2.Perm (a ++ (b ++ ps)) := by rearrange
  refine (does_dels h3).bind ?_
  rintro _ q3 h4
  exact does_dels h4

theorem neutral_excitonInterface (bs : List Bool) : Neutral (excitonInterface bs) := by
  intro ps
  refine (does_new ps).bind ?_
  rintro _ _ ⟨tc, rfl, rfl⟩
  refine (does_news 2500 _).bind ?_
  rintro _ q1 ⟨tcs, rfl, -, h1⟩
  refine (neutral_transmission bs _).bind ?_
  rintro _ q2 h2
  refine (neutral_excitonModel _).bind ?_
  rintro _ q3 h3
  refine (does_dels ((h3.trans h2).trans h1)).bind ?_
  rintro _ q4 h4
  exact (does_del h4).weaken fun _ _ e => e ▸ .refl _

/-- The fission fragment object as built: which of its pointers are live. -/
def Built (c : Choice) (f : FF) (os : List Nat) : Prop :=
  ∃ self tc em grid : Nat, ∃ tran bs ss : List Nat,
    f.self = .to self ∧ f.tc = .to tc ∧ f.emissprob = .to em ∧ f.grid = .to grid ∧ f.tran = tran.map .to ∧ tran.length = 2500 ∧
    f.spMult = .null ∧ f.temperatures = .null ∧ f.levelDensities = .null ∧ f.levelDensityParameters = .null ∧ f.npfn = c.npfn ∧
    (c.sf = true ∧ f.barrier = .null ∧ bs = [] ∨ c.sf = false ∧ ∃ b, f.barrier = .to b ∧ bs = [b]) ∧
    (c.npfn = 0 ∧ ss = [] ∨ 0 < c.npfn ∧ ∃ s1 s, f.sp1 = .to s1 ∧ f.sp = .to s ∧ ss = [s1, s]) ∧
    os = self :: tc :: em :: grid :: (tran ++ bs ++ ss)

theorem find_listed {c : Choice} (h : ∃ b ∈ c.file, b.target = true) : ∃ b, c.file.find? (·.target) = some b := by
  obtain ⟨b, hb, ht⟩ := h
  rcases hf : c.file.find? (·.target) with _ | x
  · exact absurd ht (by simpa using List.find?_eq_none.1 hf b hb)
  · exact ⟨x, hf⟩

theorem does_probabilities {c : Choice} (hc : Fine c) (f : FF) (hb : f.barrier = .null) (ps : List Nat) :
    Does ps (probabilities c f)
      (fun f' qs => ∃ em, ∃ bs : List Nat, ∃ bp : Ptr, f' = { f with emissprob := .to em, barrier := bp } ∧
        (c.sf = true ∧ bp = .null ∧ bs = [] ∨ c.sf = false ∧ ∃ b, bp = .to b ∧ bs = [b]) ∧ qs.Perm (em :: (bs ++ ps))) := by
  unfold probabilities
  rcases hc with ⟨hs, -⟩ | ⟨hs, hr, hl⟩
  · rw [if_pos hs]
    refine (does_new ps).bind ?_
    rintro _ _ ⟨e, rfl, rfl⟩
    refine Does.pure ⟨e, [], .null, ?_, Or.inl ⟨hs, rfl, rfl⟩, .refl _⟩
    rw [← hb]
  · rw [if_neg (by simp [hs])]
    obtain ⟨b, hb'⟩ := find_listed hl
    unfold readMultichance
    rw [hb']
    refine (does_new ps).bind ?_
    rintro _ _ ⟨bar, rfl, rfl⟩
    refine (does_new _).bind ?_
    rintro _ _ ⟨em, rfl, rfl⟩
    refine (does_new _).bind ?_
    rintro _ _ ⟨pf, rfl, rfl⟩
    refine (does_new _).bind ?_
    rintro _ _ ⟨en, rfl, rfl⟩
    refine (does_news _ _).bind ?_
    rintro _ q1 ⟨rows, rfl, -, h1⟩
    rw [if_pos hr]
    have h2 : q1.Perm (rows ++ (pf :: en :: em :: bar :: ps)) := by rearrange
    refine (does_dels h2).bind ?_
    rintro _ q2 h3
    refine (does_del h3).bind ?_
    rintro _ _ rfl
    refine (does_del (.refl _)).bind ?_
    rintro _ _ rfl
    exact Does.pure ⟨em, [bar], .to bar, rfl, Or.inr ⟨hs, bar, rfl, rfl⟩, .refl _⟩

theorem does_newFF {c : Choice} (hc : Fine c) (ps : List Nat) :
    Does ps (newFF c) (fun f qs => ∃ os, Built c f os ∧ qs.Perm (os ++ ps)) := by
  refine (does_new ps).bind ?_
  rintro _ _ ⟨self, rfl, rfl⟩
  unfold buildYields
  refine (does_probabilities hc (blank (.to self)) rfl _).bind ?_
  rintro _ q0 ⟨em, bs, bp, rfl, hbs, h0⟩
  refine (does_new _).bind ?_
  rintro _ _ ⟨tc, rfl, rfl⟩
  refine (does_new _).bind ?_
  rintro _ _ ⟨grid, rfl, rfl⟩
  refine (does_news 2500 _).bind ?_
  rintro _ q1 ⟨tran, rfl, hlen, h1⟩
  have hmem : em ∈ q1 := by
    rw [h1.mem_iff]; simp [h0.mem_iff]
  refine (does_use hmem).bind ?_
  rintro _ _ rfl
  by_cases hn : 0 < c.npfn
  · rw [if_pos hn]
    refine (does_new _).bind ?_
    rintro _ _ ⟨s1, rfl, rfl⟩
    refine (does_new _).bind ?_
    rintro _ _ ⟨s, rfl, rfl⟩
    refine (neutral_transmission c.evap _).bind ?_
    rintro _ q2 h2
    have key : ∀ q : List Nat, q.Perm q2 →
        ∃ os, Built c { blank (.to self) with
          emissprob := .to em
          barrier := bp
          tc := .to tc
          grid := .to grid
          tran := tran.map .to
          npfn := c.npfn
          sp1 := .to s1
          sp := .to s } os ∧ q.Perm (os ++ ps) := by
      intro q hq
      refine ⟨_, ⟨self, tc, em, grid, tran, bs, [s1, s], rfl, rfl, rfl, rfl, rfl, hlen, rfl, rfl, rfl, rfl, rfl, hbs,
        Or.inr ⟨hn, s1, s, rfl, rfl, rfl⟩, rfl⟩, ?_⟩
      clear hbs
      rearrange
    by_cases hpq : c.preeq = true
    · rw [if_pos hpq]
      refine (does_news 2 _).bind ?_
      rintro _ q3 ⟨spc, rfl, -, h3⟩
      refine (neutral_excitonInterface c.exc _).bind ?_
      rintro _ q4 h4
      refine (does_dels (h4.trans h3)).bind ?_
      rintro _ q5 h5
      exact Does.pure (key _ h5)
    · rw [if_neg hpq]
      exact Does.pure (key _ (.refl _))
  · rw [if_neg hn]
    refine Does.pure ⟨_, ⟨self, tc, em, grid, tran, bs, [], rfl, rfl, rfl, rfl, rfl, hlen, rfl, rfl, rfl, rfl, rfl, hbs,
        Or.inl ⟨by omega, rfl⟩, rfl⟩, ?_⟩
    clear hbs
    rearrange

theorem does_prefission {c : Choice} (hc : Fine c) {f : FF} {os ps fr : List Nat} (hf : Built c f os) (hp : ps.Perm (os ++ fr)) :
    Does ps (prefission f) (fun _ r => r = ps) := by
  obtain ⟨self, tc, em, grid, tran, bs, ss, hself, htc, hem, hgrid, htran, hlen, h1, h2, h3, h4, hn, hbar, hsp, rfl⟩ := hf
  unfold prefission
  by_cases h0 : 0 < f.npfn
  · rw [if_pos h0]
    rw [hn] at h0
    have hsf : c.sf = false := by
      rcases hc with ⟨_, h⟩ | ⟨h, _⟩
      · omega
      · exact h
    obtain ⟨b, hb, rfl⟩ : ∃ b, f.barrier = .to b ∧ bs = [b] := by
      rcases hbar with ⟨h, _⟩ | ⟨_, h⟩
      · rw [hsf] at h; cases h
      · exact h
    obtain ⟨s1, s, hs1, hs, rfl⟩ : ∃ s1 s, f.sp1 = .to s1 ∧ f.sp = .to s ∧ ss = [s1, s] := by
      rcases hsp with ⟨h, _⟩ | ⟨_, h⟩
      · omega
      · exact h
    rw [hb, hs1, hgrid]
    refine (does_use (by rw [hp.mem_iff]; simp)).bind ?_
    rintro _ _ rfl
    refine (does_use (by rw [hp.mem_iff]; simp)).bind ?_
    rintro _ _ rfl
    exact does_use (by rw [hp.mem_iff]; simp)
  · rw [if_neg h0]; exact Does.pure rfl

theorem does_samplePairs {c : Choice} (hc : Fine c) {f : FF} {os fr : List Nat} (hf : Built c f os) (n : Nat) {ps : List Nat}
    (hp : ps.Perm (os ++ fr)) : Does ps (samplePairs f n) (fun _ r => r = ps) := by
  induction n with
  | zero => exact Does.pure rfl
  | succ n ih =>
    have h1 : Does ps (samplePair f) (fun _ r => r = ps) := by
      refine (does_prefission hc hf hp).bind ?_
      rintro _ _ rfl
      refine (does_new _).bind ?_
      rintro _ _ ⟨m, rfl, rfl⟩
      exact does_del (.refl _)
    refine h1.bind ?_
    rintro _ _ rfl
    exact ih

theorem does_deleteFF {c : Choice} {f : FF} {os ps fr : List Nat} (hf : Built c f os) (hp : ps.Perm (os ++ fr)) :
    Does ps (deleteFF f) (fun _ r => r.Perm fr) := by
  obtain ⟨self, tc, em, grid, tran, bs, ss, hself, htc, hem, hgrid, htran, hlen, h1, h2, h3, h4, hn, hbar, hsp, rfl⟩ := hf
  have hA : Does ps (deleteSpectra f) (fun _ r => r.Perm (tran ++ (tc :: (bs ++ (em :: grid :: self :: fr))))) := by
    unfold deleteSpectra
    rcases hsp with ⟨h0, rfl⟩ | ⟨h0, s1, s, hs1, hs, rfl⟩
    · rw [if_neg (by omega)]
      refine Does.pure ?_
      clear hbar
      rearrange
    · rw [if_pos (by omega), hs1, hs]
      have : ps.Perm (s1 :: s :: (tran ++ (tc :: (bs ++ (em :: grid :: self :: fr))))) := by
        clear hbar
        rearrange
      refine (does_delIf this).bind ?_
      rintro _ _ rfl
      exact (does_delIf (.refl _)).weaken fun _ _ e => e ▸ .refl _
  refine hA.bind ?_
  rintro _ q1 hq1
  have hB : Does q1 (deleteTran f) (fun _ r => r.Perm (bs ++ (em :: grid :: self :: fr))) := by
    unfold deleteTran
    rw [htc, htran]
    show Does q1 (dels (tran.map .to) >>= fun _ => del (.to tc)) _
    refine (does_dels hq1).bind ?_
    rintro _ q hq
    exact (does_del hq).weaken fun _ _ e => e ▸ .refl _
  refine hB.bind ?_
  rintro _ q2 hq2
  have hC : Does q2 (delIf f.barrier) (fun _ r => r.Perm (em :: grid :: self :: fr)) := by
    rcases hbar with ⟨_, hb, rfl⟩ | ⟨_, b, hb, rfl⟩
    · rw [hb]; exact Does.pure hq2
    · rw [hb]; exact (does_delIf hq2).weaken fun _ _ e => e ▸ .refl _
  refine hC.bind ?_
  rintro _ q3 hq3
  rw [hem, hgrid, h1, h2, h3, h4, hself]
  refine (does_delIf hq3).bind ?_
  rintro _ _ rfl
  refine (does_delIf (.refl _)).bind ?_
  rintro _ _ rfl
  have hnv : ∀ qs, Does qs (neverMade .null) (fun _ r => r = qs) := fun qs => Does.pure rfl
  refine (hnv _).bind ?_
  rintro _ _ rfl
  refine (hnv _).bind ?_
  rintro _ _ rfl
  refine (hnv _).bind ?_
  rintro _ _ rfl
  refine (hnv _).bind ?_
  rintro _ _ rfl
  exact (does_del (.refl _)).weaken fun _ _ e => e ▸ .refl _

/-- What the file-scope variables hold. -/
def Held (nuclei : Nat) (g : Glob) (ts ss : List Nat) : Prop :=
  g.tables = ts.map .to ∧ g.scratch = ss.map .to ∧
  (g.firstcalc = true ∧ ts = [] ∨ g.firstcalc = false ∧ ts.length = 4 + nuclei) ∧
  (g.firstspec = true ∧ ss = [] ∨ g.firstspec = false ∧ ss.length = 2502)

theorem does_cascadeSteps (steps : List Step) : Neutral (cascadeSteps steps) := by
  induction steps with
  | nil => exact neutral_pure _
  | cons s ss ih => exact (neutral_spectraBinary s).bind fun _ => ih

theorem does_cascade {nuclei : Nat} {g : Glob} {ts ss sh ps fr : List Nat} (steps : List Step) (hg : Held nuclei g ts ss)
    (hsh : g.shared = sh.map .to) (hp : ps.Perm (ts ++ ss ++ sh ++ fr)) :
    Does ps (cascade steps g) (fun g' qs => ∃ ss', Held nuclei g' ts ss' ∧ g'.firstspec = false ∧ g'.firstcalc = g.firstcalc ∧
      g'.shared = sh.map .to ∧ qs.Perm (ts ++ ss' ++ sh ++ fr)) := by
  obtain ⟨htab, hscr, hfc, hfs⟩ := hg
  have hA : Does ps (specAlloc g) (fun g' qs => ∃ ss', Held nuclei g' ts ss' ∧ g'.firstspec = false ∧ g'.firstcalc = g.firstcalc ∧
      g'.shared = sh.map .to ∧ qs.Perm (ts ++ ss' ++ sh ++ fr)) := by
    unfold specAlloc
    rcases hfs with ⟨h0, rfl⟩ | ⟨h0, hl⟩
    · rw [if_pos h0]
      refine (does_news (2 + 2500) _).bind ?_
      rintro _ q ⟨ns, rfl, hlen, hq⟩
      refine Does.pure ⟨ns, ⟨htab, rfl, hfc, Or.inr ⟨rfl, hlen⟩⟩, rfl, rfl, hsh, ?_⟩
      clear hfc
      rearrange
    · rw [if_neg (by simp [h0])]
      exact Does.pure ⟨ss, ⟨htab, hscr, hfc, Or.inr ⟨h0, hl⟩⟩, h0, rfl, hsh, hp⟩
  unfold cascade
  refine hA.bind ?_
  rintro g' q ⟨ss', hg', hf1, hf2, hsh', hq⟩
  rw [hg'.1, hsh', hg'.2.1]
  refine (does_uses (ps := q) fun n hn => by rw [hq.mem_iff]; simp [hn]).bind ?_
  rintro _ _ rfl
  refine (does_uses fun n hn => by rw [hq.mem_iff]; simp [hn]).bind ?_
  rintro _ _ rfl
  refine (does_uses fun n hn => by rw [hq.mem_iff]; simp [hn]).bind ?_
  rintro _ _ rfl
  refine (does_cascadeSteps steps _).bind ?_
  rintro _ q' hq'
  exact Does.pure ⟨ss', hg', hf1, hf2, hsh', hq'.trans hq⟩

/-- What an event object holds. -/
def EvHeld (e : Ev) (os : List Nat) : Prop :=
  ∃ self, ∃ ns ps qs : List Nat, ∃ a b c : Nat,
    e.self = .to self ∧ e.nu = some a ∧ e.nug = some b ∧ e.pre = some c ∧
    e.neutrons = ns.map .to ∧ e.photons = ps.map .to ∧ e.preNeutrons = qs.map .to ∧
    (a = 0 → ns = []) ∧ (b = 0 → ps = []) ∧ (c = 0 → qs = []) ∧ os = self :: (ns ++ ps ++ qs) ∧
    ns.length ≤ 9 ∧ ps.length ≤ 5 ∧ qs.length ≤ 5

theorem does_arrays (n k : Nat) (ps : List Nat) :
    Does ps (arrays n k) (fun l qs => ∃ ns : List Nat, l = ns.map .to ∧ (n = 0 → ns = []) ∧ ns.length ≤ k ∧ qs.Perm (ns ++ ps)) := by
  unfold arrays
  by_cases h : 0 < n
  · rw [if_pos h]
    exact (does_news k ps).weaken fun _ _ ⟨ns, h1, h2, h3⟩ => ⟨ns, h1, by omega, h2.le, h3⟩
  · rw [if_neg h]
    exact Does.pure ⟨[], rfl, fun _ => rfl, Nat.zero_le _, .refl _⟩

theorem does_ensureInit {nuclei : Nat} {g : Glob} {ts ss ps fr : List Nat} (hg : Held nuclei g ts ss) (hp : ps.Perm (ts ++ ss ++ fr)) :
    Does ps (ensureInit nuclei g) (fun g' qs => ∃ ts', Held nuclei g' ts' ss ∧ g'.firstcalc = false ∧
      qs.Perm (ts' ++ ss ++ fr)) := by
  obtain ⟨htab, hscr, hfc, hfs⟩ := hg
  unfold ensureInit
  rcases hfc with ⟨h0, rfl⟩ | ⟨h0, hl⟩
  · rw [if_pos h0]
    unfold initialization
    refine Does.bind (Q := fun g' qs => ∃ ns : List Nat, g' = { g with tables := ns.map .to } ∧ ns.length = 4 + nuclei ∧
      qs.Perm (ns ++ ps)) ?_ ?_
    · refine (does_news _ _).bind ?_
      rintro _ q ⟨ns, rfl, hlen, hq⟩
      exact Does.pure ⟨ns, rfl, hlen, hq⟩
    · rintro _ q ⟨ns, rfl, hlen, hq⟩
      refine Does.pure ⟨ns, ⟨rfl, hscr, Or.inr ⟨rfl, hlen⟩, hfs⟩, rfl, ?_⟩
      clear hfs
      rearrange
  · rw [if_neg (by simp [h0])]
    exact Does.pure ⟨ts, ⟨htab, hscr, Or.inr ⟨h0, hl⟩, hfs⟩, h0, hp⟩

theorem does_allocShared (g : Glob) (ps : List Nat) :
    Does ps (allocShared g) (fun g' qs => ∃ sh : List Nat, g' = { g with shared := sh.map .to } ∧ sh.length = 50075 ∧
      qs.Perm (sh ++ ps)) := by
  unfold allocShared
  refine (does_news _ _).bind ?_
  rintro _ q ⟨ns, rfl, hlen, hq⟩
  exact Does.pure ⟨ns, rfl, hlen, hq⟩

theorem does_newEvent {nuclei : Nat} {c : Choice} (hc : Fine c) {g : Glob} {ts ss ps fr : List Nat} (hg : Held nuclei g ts ss)
    (hp : ps.Perm (ts ++ ss ++ fr)) :
    Does ps (newEvent nuclei c g) (fun x qs => ∃ ts' ss' sh os, Held nuclei x.2 ts' ss' ∧ x.2.firstcalc = false ∧
      x.2.firstspec = false ∧ x.2.shared = sh.map .to ∧ EvHeld x.1 os ∧ sh.length = 50075 ∧ qs.Perm (os ++ sh ++ (ts' ++ ss' ++ fr))) := by
  unfold newEvent
  refine (does_new ps).bind ?_
  rintro _ _ ⟨self, rfl, rfl⟩
  have hp1 : (self :: ps).Perm (ts ++ ss ++ (self :: fr)) := by
    clear hg
    rearrange
  refine (does_ensureInit hg hp1).bind ?_
  rintro g1 q1 ⟨ts', hg1, hfc1, hq1⟩
  refine (does_allocShared g1 q1).bind ?_
  rintro _ q2 ⟨sh, rfl, hshl, hq2⟩
  refine (does_new _).bind ?_
  rintro _ _ ⟨lf, rfl, rfl⟩
  refine (does_new _).bind ?_
  rintro _ _ ⟨hf, rfl, rfl⟩
  refine (does_newFF hc _).bind ?_
  rintro ff q3 ⟨fo, hff, hq3⟩
  refine (does_samplePairs hc hff c.tries hq3).bind ?_
  rintro _ q3' hq3'
  rw [hq3']
  have hp2 : q3.Perm (ts' ++ ss ++ sh ++ (fo ++ (hf :: lf :: self :: fr))) := by
    clear hff hg hg1 hc
    rearrange
  refine (does_cascade c.light (g := { g1 with shared := sh.map .to }) hg1 rfl hp2).bind ?_
  rintro g2 q4 ⟨ss2, hg2, hfs2, hfc2, hsh2, hq4⟩
  refine (does_cascade c.heavy hg2 hsh2 hq4).bind ?_
  rintro g3 q5 ⟨ss3, hg3, hfs3, hfc3, hsh3, hq5⟩
  refine (does_arrays c.nu 9 _).bind ?_
  rintro _ q6 ⟨ns, rfl, hns, hln, hq6⟩
  refine (does_arrays c.nug 5 _).bind ?_
  rintro _ q7 ⟨gs, rfl, hgs, hlg, hq7⟩
  refine (does_arrays ff.npfn 5 _).bind ?_
  rintro _ q8 ⟨pf, rfl, hpf, hlp, hq8⟩
  have hp3 : q8.Perm (lf :: hf :: (fo ++ (self :: (ns ++ gs ++ pf) ++ sh ++ (ts' ++ ss3 ++ fr)))) := by
    clear hff hg hg1 hg2 hg3 hc hns hgs hpf hp2 hq4 hq3 hp hp1 hq1 hq2
    rearrange
  refine (does_delIf hp3).bind ?_
  rintro _ _ rfl
  refine (does_delIf (.refl _)).bind ?_
  rintro _ _ rfl
  refine (does_deleteFF hff (.refl _)).bind ?_
  rintro _ q9 hq9
  refine Does.pure ⟨ts', ss3, sh, _, hg3, ?_, hfs3, hsh3, ⟨self, ns, gs, pf, _, _, _, rfl, rfl, rfl, rfl, rfl, rfl, rfl, hns, hgs, hpf, rfl, hln, hlg, hlp⟩, hshl, hq9⟩
  rw [hfc3, hfc2]; exact hfc1

theorem does_deleteArrays {n : Nat} {ns ps qs : List Nat} (h0 : n = 0 → ns = []) (hp : ps.Perm (ns ++ qs)) :
    Does ps (deleteArrays (some n) (ns.map .to)) (fun _ r => r.Perm qs) := by
  show Does ps (if 0 < n then dels (ns.map .to) else Pure.pure ()) _
  by_cases h : 0 < n
  · rw [if_pos h]; exact does_dels hp
  · rw [if_neg h]
    have : ns = [] := h0 (by omega)
    subst this
    exact Does.pure hp

theorem does_deleteEvent {e : Ev} {g : Glob} {os sh ps fr : List Nat} (he : EvHeld e os) (hsh : g.shared = sh.map .to)
    (hp : ps.Perm (os ++ sh ++ fr)) : Does ps (deleteEvent e g) (fun _ r => r.Perm fr) := by
  obtain ⟨self, ns, gs, pf, a, b, c, h1, h2, h3, h4, h5, h6, h7, h8, h9, h10, rfl, -, -, -⟩ := he
  unfold deleteEvent
  rw [h1, h2, h3, h4, h5, h6, h7]
  have hp1 : ps.Perm (pf ++ (ns ++ (gs ++ (sh ++ (self :: fr))))) := by
    clear h8 h9 h10
    rearrange
  refine (does_deleteArrays h10 hp1).bind ?_
  rintro _ q1 hq1
  refine (does_deleteArrays h8 hq1).bind ?_
  rintro _ q2 hq2
  refine (does_deleteArrays h9 hq2).bind ?_
  rintro _ q3 hq3
  unfold deleteShared
  rw [hsh]
  refine (does_dels hq3).bind ?_
  rintro _ q4 hq4
  exact (does_del hq4).weaken fun _ _ e => e ▸ .refl _

/-- The previous event, or none, and the shared arrays. -/
def Prev (e : Option Ev) (g : Glob) (os sh : List Nat) : Prop :=
  match e with
  | none => os = [] ∧ sh = []
  | some e => EvHeld e os ∧ g.shared = sh.map .to ∧ sh.length = 50075

theorem does_deletePrevious {e : Option Ev} {g : Glob} {os sh ps fr : List Nat} (he : Prev e g os sh)
    (hp : ps.Perm (os ++ sh ++ fr)) : Does ps (deletePrevious e g) (fun _ r => r.Perm fr) := by
  cases e with
  | none =>
    obtain ⟨rfl, rfl⟩ := he
    exact Does.pure hp
  | some e => exact does_deleteEvent he.1 he.2.1 hp

theorem does_events {nuclei : Nat} (cs : List Choice) (hcs : ∀ c ∈ cs, Fine c) {e : Option Ev} {g : Glob} {ts ss os sh ps : List Nat}
    (hg : Held nuclei g ts ss) (he : Prev e g os sh) (hp : ps.Perm (os ++ sh ++ (ts ++ ss))) :
    Does ps (events nuclei cs e g) (fun x qs => ∃ ts' ss' os' sh', Held nuclei x.2 ts' ss' ∧ Prev x.1 x.2 os' sh' ∧
      (cs ≠ [] → x.2.firstcalc = false ∧ x.2.firstspec = false) ∧ (cs = [] → x = (e, g)) ∧ qs.Perm (os' ++ sh' ++ (ts' ++ ss'))) := by
  induction cs generalizing e g ts ss os sh ps with
  | nil => exact Does.pure ⟨ts, ss, os, sh, hg, he, fun h => absurd rfl h, fun _ => rfl, hp⟩
  | cons c cs ih =>
    refine (does_deletePrevious he hp).bind ?_
    rintro _ q1 hq1
    have hq1' : q1.Perm (ts ++ ss ++ []) := by simpa using hq1
    refine (does_newEvent (hcs c (by simp)) hg hq1').bind ?_
    rintro ⟨e', g'⟩ q2 ⟨ts', ss', sh', os', hg', hfc, hfs, hsh, hev, hshl, hq2⟩
    have hq2' : q2.Perm (os' ++ sh' ++ (ts' ++ ss')) := by simpa using hq2
    refine (ih (fun c' hc' => hcs c' (by simp [hc'])) (e := some e') hg' ⟨hev, hsh, hshl⟩ hq2').weaken ?_
    rintro x qs ⟨t, s, o, h, h1, h2, h3, h4, h5⟩
    refine ⟨t, s, o, h, h1, h2, fun _ => ?_, fun h => (by simp at h), h5⟩
    by_cases hn : cs = []
    · have h6 := h4 hn
      have h7 : x.2 = g' := by rw [h6]
      rw [h7]; exact ⟨hfc, hfs⟩
    · exact h3 hn

theorem held_init (nuclei : Nat) : Held nuclei Glob.init [] [] := ⟨rfl, rfl, Or.inl ⟨rfl, rfl⟩, Or.inl ⟨rfl, rfl⟩⟩

theorem does_run {nuclei : Nat} (cs : List Choice) (hcs : ∀ c ∈ cs, Fine c) :
    Does [] (run nuclei cs Glob.init) (fun g qs => ∃ ts ss, Held nuclei g ts ss ∧
      (cs ≠ [] → g.firstcalc = false ∧ g.firstspec = false) ∧ qs.Perm (ts ++ ss)) := by
  unfold run
  refine (does_events cs hcs (held_init nuclei) (e := none) ⟨rfl, rfl⟩ (.refl _)).bind ?_
  rintro ⟨e, g⟩ q ⟨ts, ss, os, sh, hg, he, h3, -, hq⟩
  refine (does_deletePrevious he hq).bind ?_
  rintro _ q2 hq2
  exact Does.pure ⟨ts, ss, hg, h3, hq2⟩

theorem does_cleanup' {nuclei : Nat} {g : Glob} {ts ss ps fr : List Nat} (hg : Held nuclei g ts ss) (hp : ps.Perm (ts ++ (ss ++ fr))) :
    Does ps (cleanup g) (fun g' qs => g'.shared = g.shared ∧ qs.Perm fr) := by
  obtain ⟨htab, hscr, -, hfs⟩ := hg
  unfold cleanup
  rw [htab]
  refine (does_dels hp).bind ?_
  rintro _ q hq
  unfold specCleanup
  rcases hfs with ⟨h0, rfl⟩ | ⟨h0, -⟩
  · rw [if_pos h0]; exact Does.pure ⟨rfl, hq⟩
  · rw [if_neg (by simp [h0]), hscr]
    refine (does_dels hq).bind ?_
    rintro _ q' h'
    exact Does.pure ⟨rfl, h'⟩

theorem does_program {nuclei : Nat} (cs : List Choice) (hcs : ∀ c ∈ cs, Fine c) :
    Does [] (program nuclei cs) (fun _ qs => qs = []) := by
  unfold program
  refine (does_events cs hcs (held_init nuclei) (e := none) ⟨rfl, rfl⟩ (.refl _)).bind ?_
  rintro ⟨e, g⟩ q ⟨ts, ss, os, sh, hg, he, h3, -, hq⟩
  have hq' : q.Perm (ts ++ (ss ++ (os ++ sh ++ []))) := by
    clear hg he h3
    rearrange
  refine (does_cleanup' hg hq').bind ?_
  rintro g' q2 ⟨hsh, hq2⟩
  have he' : Prev e g' os sh := by
    cases e with
    | none => exact he
    | some e => exact ⟨he.1, hsh.trans he.2.1, he.2.2⟩
  exact (does_deletePrevious he' hq2).weaken fun _ _ h => List.perm_nil.1 h

theorem does_cleanup {nuclei : Nat} {g : Glob} {ts ss ps : List Nat} (hg : Held nuclei g ts ss) (hp : ps.Perm (ts ++ ss)) :
    Does ps (cleanup g) (fun _ qs => qs = []) :=
  (does_cleanup' (fr := []) hg (by simpa using hp)).weaken fun _ _ h => List.perm_nil.1 h.2

theorem bind_ok {α β : Type} {m : M α} {k : α → M β} {h h' : Life.Heap} {a : α} (e : m h = .ok (a, h')) : (m >>= k) h = k a h' := by
  show (m h).bind (fun x => k x.1 x.2) = _
  rw [e]; rfl

theorem Does.ok {α : Type} {m : M α} {Q : α → List Nat → Prop} (hm : ∀ ps, Does ps m Q) (h : Life.Heap) : ∃ a h', m h = .ok (a, h') := by
  obtain ⟨a, h', _, e, _⟩ := hm [] h h.live (.refl _)
  exact ⟨a, h', e⟩

theorem ok_new (h : Life.Heap) : ∃ a h', new h = .ok (a, h') := ⟨_, _, rfl⟩

theorem ok_news (n : Nat) (h : Life.Heap) : ∃ a h', news n h = .ok (a, h') := by
  obtain ⟨a, h', _, e, _⟩ := does_news n [] h h.live (.refl _)
  exact ⟨a, h', e⟩

theorem ok_ensureInit (nuclei : Nat) (g : Glob) (h : Life.Heap) : ∃ a h', ensureInit nuclei g h = .ok (a, h') := by
  unfold ensureInit initialization
  by_cases hf : g.firstcalc = true
  · rw [if_pos hf]
    obtain ⟨a, h', e⟩ := ok_news (4 + nuclei) h
    exact ⟨_, h', by rw [bind_ok (a := { g with tables := a }) (h' := h') (by rw [bind_ok e]; rfl)]; rfl⟩
  · rw [if_neg hf]; exact ⟨g, h, rfl⟩

theorem ok_allocShared (g : Glob) (h : Life.Heap) : ∃ a h', allocShared g h = .ok (a, h') := by
  unfold allocShared
  obtain ⟨a, h', e⟩ := ok_news (10 * 5007 + 1 + 4) h
  exact ⟨_, h', by rw [bind_ok e]; rfl⟩

/-- The table of emission probabilities decides whether the event gets further. -/
theorem readMultichance_stops {c : Choice} (hs : c.sf = false) (f : FF) (h : Life.Heap)
    (hc : (∃ b ∈ c.file, b.target = true) ∧ c.inRange = false ∨ (∀ b ∈ c.file, b.target = false) ∧ 0 < c.nemit) :
    probabilities c f h = .exit := by
  unfold probabilities
  rw [if_neg (by simp [hs])]
  unfold readMultichance
  rcases hc with ⟨hl, hr⟩ | ⟨hl, hn⟩
  · obtain ⟨b, hb⟩ := find_listed hl
    rw [hb]
    obtain ⟨a1, h1, e1⟩ := ok_new h
    obtain ⟨a2, h2, e2⟩ := ok_new h1
    obtain ⟨a3, h3, e3⟩ := ok_new h2
    obtain ⟨a4, h4, e4⟩ := ok_new h3
    obtain ⟨a5, h5, e5⟩ := ok_news b.energies h4
    dsimp only
    rw [bind_ok e1, bind_ok e2, bind_ok e3, bind_ok e4, bind_ok e5, if_neg (by simp [hr])]
    rfl
  · have : c.file.find? (·.target) = none := List.find?_eq_none.2 fun b hb => by simp [hl b hb]
    rw [this]
    dsimp only
    rw [if_pos hn]; rfl

theorem newFF_eq (c : Choice) (h : Life.Heap) :
    newFF c h = buildYields c (blank (.to h.next)) h.alloc.2 := rfl

theorem newFF_stops {c : Choice} (hs : c.sf = false) (h : Life.Heap)
    (hc : (∃ b ∈ c.file, b.target = true) ∧ c.inRange = false ∨ (∀ b ∈ c.file, b.target = false) ∧ 0 < c.nemit) :
    newFF c h = .exit := by
  rw [newFF_eq]
  unfold buildYields
  show (probabilities c _ _).bind _ = _
  rw [readMultichance_stops hs _ _ hc]; rfl

theorem newFF_absent {c : Choice} (hs : c.sf = false) (h : Life.Heap) (hl : ∀ b ∈ c.file, b.target = false) (hn : c.nemit = 0) :
    newFF c h = .ub := by
  rw [newFF_eq]
  have hp : probabilities c (blank (.to h.next)) h.alloc.2 = .ok (blank (.to h.next), h.alloc.2) := by
    unfold probabilities
    rw [if_neg (by simp [hs])]
    unfold readMultichance
    have : c.file.find? (·.target) = none := List.find?_eq_none.2 fun b hb => by simp [hl b hb]
    rw [this]
    dsimp only
    rw [if_neg (by omega)]; rfl
  unfold buildYields
  rw [bind_ok hp]
  obtain ⟨a1, h1, e1⟩ := ok_new h.alloc.2
  obtain ⟨a2, h2, e2⟩ := ok_new h1
  obtain ⟨a3, h3, e3⟩ := ok_news 2500 h2
  rw [bind_ok e1, bind_ok e2, bind_ok e3]
  rfl

/-- Until the fragment object is made nothing depends on the choices. -/
theorem newEvent_ff (nuclei : Nat) (c : Choice) (g : Glob) (h : Life.Heap) (r : ∀ α, Res α) (hr : ∀ {α β : Type} (k : α → Res β), (r α).bind k = r β)
    (hff : ∀ h', newFF c h' = r _) : newEvent nuclei c g h = r _ := by
  unfold newEvent
  obtain ⟨a1, h1, e1⟩ := ok_new h
  obtain ⟨a2, h2, e2⟩ := ok_ensureInit nuclei g h1
  obtain ⟨a3, h3, e3⟩ := ok_allocShared a2 h2
  obtain ⟨a4, h4, e4⟩ := ok_new h3
  obtain ⟨a5, h5, e5⟩ := ok_new h4
  rw [bind_ok e1, bind_ok e2, bind_ok e3, bind_ok e4, bind_ok e5]
  show (newFF c h5).bind _ = _
  rw [hff]
  exact hr _

/-- Number of blocks an object built holds. -/
theorem built_length {c : Choice} {f : FF} {os : List Nat} (h : Built c f os) :
    os.length = 2504 + (if c.sf then 0 else 1) + (if 0 < c.npfn then 2 else 0) := by
  obtain ⟨self, tc, em, grid, tran, bs, ss, -, -, -, -, -, hlen, -, -, -, -, -, hbar, hsp, rfl⟩ := h
  have h1 : bs.length = if c.sf then 0 else 1 := by
    rcases hbar with ⟨h, _, rfl⟩ | ⟨h, _, _, rfl⟩ <;> simp [h]
  have h2 : ss.length = if 0 < c.npfn then 2 else 0 := by
    rcases hsp with ⟨h, rfl⟩ | ⟨h, _, _, _, _, rfl⟩ <;> simp [h]
  simp only [List.length_cons, List.length_append, hlen, h1, h2]
  omega

theorem does_newYields {nuclei : Nat} {c : Choice} (hc : Fine c) (g : Glob) (ps : List Nat) :
    Does ps (newYields nuclei c g) (fun x qs => x.1.pre = none ∧ qs.length = ps.length + kept nuclei c) := by
  unfold newYields
  refine (does_new ps).bind ?_
  rintro _ _ ⟨self, rfl, rfl⟩
  unfold initialization
  refine Does.bind (Q := fun g' qs => qs.length = ps.length + 1 + (4 + nuclei)) ?_ ?_
  · refine (does_news _ _).bind ?_
    rintro _ q ⟨ns, rfl, hlen, hq⟩
    refine Does.pure ?_
    rw [hq.length_eq, List.length_append, hlen, List.length_cons]; omega
  rintro g' q1 hq1
  refine (does_allocShared g' q1).bind ?_
  rintro _ q2 ⟨sh, rfl, hsh, hq2⟩
  refine (does_new _).bind ?_
  rintro _ _ ⟨lf, rfl, rfl⟩
  refine (does_new _).bind ?_
  rintro _ _ ⟨hf, rfl, rfl⟩
  refine (does_newFF hc _).bind ?_
  rintro ff q3 ⟨fo, hff, hq3⟩
  refine (does_samplePairs hc hff c.tries hq3).bind ?_
  rintro _ q4 hq4
  refine Does.pure ⟨rfl, ?_⟩
  rw [hq4, hq3.length_eq, List.length_append, built_length hff, List.length_cons, List.length_cons, hq2.length_eq, List.length_append,
    hsh, hq1]
  unfold kept
  omega

theorem does_yieldsCalls {nuclei : Nat} (cs : List Choice) (hcs : ∀ c ∈ cs, Fine c) (g : Glob) (ps : List Nat) :
    Does ps (yieldsCalls nuclei cs g) (fun _ qs => qs.length = ps.length + (cs.map (kept nuclei)).sum) := by
  induction cs generalizing g ps with
  | nil => exact Does.pure (by simp)
  | cons c cs ih =>
    refine (does_newYields (hcs c (by simp)) g ps).bind ?_
    rintro ⟨e, g'⟩ q ⟨-, hq⟩
    refine (ih (fun c' h => hcs c' (by simp [h])) g' q).weaken ?_
    intro _ qs h
    rw [h, hq]; simp; omega

end CGMF.Mem
