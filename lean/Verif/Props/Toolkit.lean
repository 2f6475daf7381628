import Verif.Proofs.Toolkit

/-!
# C55, C56, C57, C58, C68, C69, C70: analysis of history files

Readable from the statements with `Model/Toolkit.lean` (the methods of `Histories`) and `Spec/Toolkit.lean`.
A history of the events `ps` is the list of fragments `flat ps`.
-/

namespace CGMF.Props

open CGMF CGMF.Toolkit CGMF.Parser

/-! ## C55 -/

/-- **C55.** For every non-empty history (with no negative neutron number) `Pnu()` succeeds, its entry `i` is the
fraction of events with `i` neutrons, it reaches up to the largest number, it sums to one and its mean is
`nubartot()`, which is the average over events. -/
theorem C55_neutrons (ps : List (PyFrag × PyFrag)) (hne : ps ≠ []) (h0 : ∀ p ∈ ps, 0 ≤ neutrons p) :
    ∃ P, Pnu none (flat ps) = .ok P ∧ P.sum = 1 ∧
      nubartot (flat ps) = .ok (P.zipIdx.map fun x => (x.2 : ℚ) * x.1).sum ∧
      (P.zipIdx.map fun x => (x.2 : ℚ) * x.1).sum = average (fun p => (neutrons p : ℚ)) ps ∧
      (∀ p ∈ ps, neutrons p < P.length) ∧
      ∀ (i : Nat) (y : ℚ), P[i]? = some y →
        y = ((ps.filter fun p => decide (neutrons p = (i : Int))).length : ℚ) / ps.length := by
  obtain ⟨P, h1, h2, h3, h4, h5⟩ := distribution_spec (ps.map neutrons)
    (by intro t ht; obtain ⟨p, hp, rfl⟩ := List.mem_map.mp ht; exact h0 p hp) (by simpa using hne)
  have ht : neutronTotals (flat ps) = .ok (ps.map neutrons) := totals_flat ps
  rw [List.length_map] at h1 h3 h5
  refine ⟨P, ?_, h2, ?_, ?_, ?_, ?_⟩
  · unfold Pnu
    simp only []
    rw [ht, events_flat]
    exact h1
  · unfold nubartot
    rw [ht, h3]
    simp only [Res.bind]
    unfold mean
    rw [if_neg (by simpa [toQ] using hne)]
    simp [toQ]
  · rw [h3]
    unfold average toQ
    rw [List.map_map]
    rfl
  · intro p hp
    exact h4 _ (List.mem_map_of_mem hp)
  · intro i y hy
    rw [h5 i y hy, List.filter_map, List.length_map]
    rfl

/-- **C55**, photons above a threshold: `Pnug(Eth)` and `nubargtot(Eth=Eth)`. -/
theorem C55_photons (eth : ℚ) (ps : List (PyFrag × PyFrag)) (hne : ps ≠ []) :
    ∃ P, Pnug (some eth) (flat ps) = .ok P ∧ P.sum = 1 ∧
      nubargtot eth (flat ps) = .ok (P.zipIdx.map fun x => (x.2 : ℚ) * x.1).sum ∧
      (P.zipIdx.map fun x => (x.2 : ℚ) * x.1).sum = average (fun p => (photons eth p : ℚ)) ps ∧
      ∀ (i : Nat) (y : ℚ), P[i]? = some y →
        y = ((ps.filter fun p => decide (photons eth p = i)).length : ℚ) / ps.length := by
  have hph : ∀ p : PyFrag × PyFrag, atLeast eth (p.1.phot.map (·.e) ++ p.2.phot.map (·.e)) = (photons eth p : Int) := by
    intro p
    unfold atLeast photons
    rw [← List.map_append, List.filter_map, List.length_map]
    rfl
  have ht : photonCut eth (flat ps) = .ok (ps.map fun p => (photons eth p : Int)) := by
    rw [photonCut_flat]
    simp only [hph]
  obtain ⟨P, h1, h2, h3, h4, h5⟩ := distribution_spec (ps.map fun p => (photons eth p : Int))
    (by intro t ht; obtain ⟨p, hp, rfl⟩ := List.mem_map.mp ht; omega) (by simpa using hne)
  rw [List.length_map] at h1 h3 h5
  refine ⟨P, ?_, h2, ?_, ?_, ?_⟩
  · unfold Pnug
    simp only []
    rw [ht, events_flat]
    exact h1
  · unfold nubargtot
    rw [ht, h3]
    simp only [Res.bind]
    unfold mean
    rw [if_neg (by simpa [toQ] using hne)]
    simp [toQ]
  · rw [h3]
    unfold average toQ
    rw [List.map_map]
    have : ∀ p : PyFrag × PyFrag, ((fun z : Int => (z : ℚ)) ∘ fun p => (photons eth p : Int)) p = (photons eth p : ℚ) := by
      intro p; simp
    rw [List.map_congr_left (fun p _ => this p)]
  · intro i y hy
    rw [h5 i y hy, List.filter_map, List.length_map]
    congr 3
    apply List.filter_congr
    intro p _
    simp

/-- **C55**, photons without a threshold: `Pnug()` is the distribution of the recorded multiplicities, and its
mean is their average. -/
theorem C55_photons_all (ps : List (PyFrag × PyFrag)) (hne : ps ≠ []) (h0 : ∀ p ∈ ps, 0 ≤ p.1.ng + p.2.ng) :
    ∃ P, Pnug none (flat ps) = .ok P ∧ P.sum = 1 ∧
      (P.zipIdx.map fun x => (x.2 : ℚ) * x.1).sum = average (fun p => ((p.1.ng + p.2.ng : Int) : ℚ)) ps := by
  obtain ⟨P, h1, h2, h3, _, _⟩ := distribution_spec (ps.map fun p => p.1.ng + p.2.ng)
    (by intro t ht; obtain ⟨p, hp, rfl⟩ := List.mem_map.mp ht; exact h0 p hp) (by simpa using hne)
  rw [List.length_map] at h1 h3
  refine ⟨P, ?_, h2, ?_⟩
  · unfold Pnug nugs
    simp only []
    rw [total_flat, events_flat]
    exact h1
  · rw [h3]
    unfold average toQ
    rw [List.map_map]
    rfl

/-- **C55**, finding: with a threshold `Pnu` raises an exception for every history of two or more events, because the
list of fragments is added to the list of events. -/
theorem C55_threshold_fails (eth : ℚ) (ps : List (PyFrag × PyFrag)) (h : 2 ≤ ps.length) :
    Pnu (some eth) (flat ps) = .exit := by
  unfold Pnu neutronCut
  simp only []
  have h1 : (nElab (flat ps)).length = 2 * ps.length := by unfold nElab; rw [List.length_map, flat_length]
  have h2 : (preElab (flat ps)).length = ps.length := by unfold preElab; rw [(evens_flat _ ps).2, List.length_map]
  have : bcast (· ++ ·) (nElab (flat ps)) (preElab (flat ps)) = .exit := by
    unfold bcast
    rw [if_neg (by omega)]
    split
    · rename_i hx; rw [hx] at h1; simp at h1; omega
    · rename_i y hy _; rw [hy] at h2; simp at h2; omega
    · rfl
  rw [this]
  rfl

/-- A fragment of the examples: mass, neutron directions, photon energies with ages, pre-fission neutrons. -/
def tkFrag (a : Int) (ns : List Vec4) (gs : List (ℚ × ℚ)) (npn : Int) : PyFrag :=
  ⟨a, 40, 10, 1, 1, 90, 89, ns.length, gs.length, npn, (0, 0, 1), (0, 0, 1), ns, ns,
    gs.map (fun g => ⟨0, 0, 1, g.1⟩), gs.map Prod.snd, []⟩

def vx : Vec4 := ⟨1, 0, 0, 2⟩
def vy : Vec4 := ⟨0, 1, 0, 3⟩
def vz : Vec4 := ⟨0, 3 / 5, 4 / 5, 1⟩

/-- Three events, with 3, 1 and 1 neutrons and 3, 1 and 2 photons. -/
def tkEvents : List (PyFrag × PyFrag) :=
  [(tkFrag 96 [vx, vy] [(1, 1 / 10), (2, 5)] 0, tkFrag 139 [vz] [(1 / 2, 2)] 0),
   (tkFrag 100 [] [(1, 3)] 0, tkFrag 135 [vx] [] 0), (tkFrag 96 [] [] 0, tkFrag 138 [] [(1, 1), (4, 9)] 1)]

example : Pnu none (flat tkEvents) = .ok [0, 2 / 3, 0, 1 / 3] ∧ nubartot (flat tkEvents) = .ok (5 / 3) ∧
    Pnug (some 1) (flat tkEvents) = .ok [0, 1 / 3, 2 / 3] ∧ Pnug none (flat tkEvents) = .ok [0, 1 / 3, 1 / 3, 1 / 3] ∧
    Pnu (some 1) (flat tkEvents) = .exit := by decide +kernel

/-! ## C56 -/

/-- **C56**, partial: for every non-empty history, `nubarA()` lists the masses from the smallest up to the one
before the largest, each with the mean neutron number of its fragments, and weighting with the numbers of
fragments gives the total number of neutrons without those of the largest mass. What is missing is the
largest mass, which the code leaves out (`C56_refuted`). -/
theorem C56_mass_partial (fs : List PyFrag) (hne : fs ≠ []) :
    ∃ (rows : List (Int × ℚ)) (lo hi : Int), nubarA fs = .ok rows ∧ (∃ f ∈ fs, f.a = hi) ∧
      (∀ f ∈ fs, lo ≤ f.a ∧ f.a ≤ hi) ∧ rows.map Prod.fst = (List.range (hi - lo).toNat).map (fun i : Nat => lo + i) ∧
      (rows.map fun r => ((fs.filter fun f => decide (f.a = r.1)).length : ℚ) * r.2).sum
        = (fs.map fun f => (f.nn : ℚ)).sum - ((fs.filter fun f => decide (f.a = hi)).map fun f => (f.nn : ℚ)).sum := by
  have hm : masses fs ≠ [] := by simpa [masses] using hne
  obtain ⟨hi, h1, h2, h3⟩ := maxI_spec hm
  obtain ⟨lo, h4, h5⟩ := minI_spec hm
  have hlen : (masses fs).length = (toQ (nus fs)).length := by simp [masses, nus, toQ]
  obtain ⟨rows, r1, r2, r3, r4⟩ := massRows_spec hlen (hi - lo).toNat lo
  obtain ⟨f, hf, hfa⟩ := List.mem_map.mp h2
  have hb : ∀ f ∈ fs, lo ≤ f.a ∧ f.a ≤ hi := fun f hf =>
    ⟨h5 _ (List.mem_map_of_mem hf), h3 _ (List.mem_map_of_mem hf)⟩
  refine ⟨rows, lo, hi, ?_, ⟨f, hf, hfa⟩, hb, ?_, ?_⟩
  · unfold nubarA qA
    rw [h4]; simp only [Res.bind]
    rw [h1]; exact r1
  · apply List.ext_getElem
    · simp [r2]
    · intro i a b
      have ha : i < rows.length := by simpa using a
      have := (r3 i rows[i] (List.getElem?_eq_getElem ha)).1
      simp [this]
  · have hcount : ∀ r : Int × ℚ, (fs.filter fun f => decide (f.a = r.1)).length
        = ((masses fs).filter fun x => decide (x = r.1)).length := by
      intro r; unfold masses; rw [List.filter_map, List.length_map]; rfl
    simp only [hcount]
    rw [r4]
    have hlohi : lo ≤ hi := (hb f hf).1.trans (hfa ▸ (hb f hf).2)
    have hz : (masses fs).zip (toQ (nus fs)) = fs.map fun f => (f.a, (f.nn : ℚ)) := by
      unfold masses toQ nus
      rw [List.map_map, List.zip_map']
      rfl
    rw [hz]
    clear r1 r2 r3 r4 hz hcount hlen h1 h2 h3 h4 h5 hm hne hf hfa
    induction fs with
    | nil => simp
    | cons g fs ih =>
        have hg := hb g (by simp)
        have ih := ih (fun f hf => hb f (by simp [hf]))
        simp only [List.map_cons, List.filter_cons, decide_eq_true_eq, List.sum_cons]
        by_cases e : g.a = hi
        · rw [if_neg (by omega), if_pos e]
          simp only [List.map_cons, List.sum_cons]
          rw [ih]; ring
        · rw [if_pos (by omega), if_neg e]
          simp only [List.map_cons, List.sum_cons]
          rw [ih]; ring

/-- **C56** fails for every history whose fragments of the largest mass emitted neutrons: the weighted average is
not the total. -/
theorem C56_refuted (fs : List PyFrag) (hne : fs ≠ []) (hi : Int) (hmax : ∀ f ∈ fs, f.a ≤ hi)
    (hn : ((fs.filter fun f => decide (f.a = hi)).map fun f => (f.nn : ℚ)).sum ≠ 0) :
    ∃ rows, nubarA fs = .ok rows ∧
      (rows.map fun r => ((fs.filter fun f => decide (f.a = r.1)).length : ℚ) * r.2).sum
        ≠ (fs.map fun f => (f.nn : ℚ)).sum := by
  obtain ⟨rows, lo, hi', h1, ⟨g, hg, hga⟩, hb, _, h2⟩ := C56_mass_partial fs hne
  refine ⟨rows, h1, ?_⟩
  have : hi' = hi := by
    have h3 : hi' ≤ hi := hga ▸ hmax g hg
    by_contra hc
    apply hn
    have : (fs.filter fun f => decide (f.a = hi)) = [] := by
      rw [List.filter_eq_nil_iff]
      intro f hf
      have := (hb f hf).2
      simp only [decide_eq_true_eq]
      omega
    rw [this]; rfl
  subst this
  rw [h2]
  intro e
  exact hn (by linarith)

/-- **C56** holds of photons: `nubargA` goes up to the largest mass and the weighted average is the total number
of photons above the threshold. -/
theorem C56_photons (eth : ℚ) (fs : List PyFrag) (hne : fs ≠ []) :
    ∃ (rows : List (Int × ℚ)) (lo hi : Int), nubargA eth fs = .ok rows ∧
      (∀ f ∈ fs, lo ≤ f.a ∧ f.a ≤ hi) ∧ (∃ f ∈ fs, f.a = hi) ∧
      rows.map Prod.fst = (List.range (hi + 1 - lo).toNat).map (fun i : Nat => lo + i) ∧
      (rows.map fun r => ((fs.filter fun f => decide (f.a = r.1)).length : ℚ) * r.2).sum
        = (fs.map fun f => ((f.phot.filter fun g => decide (eth ≤ g.e)).length : ℚ)).sum := by
  have hm : masses fs ≠ [] := by simpa [masses] using hne
  obtain ⟨hi, h1, h2, h3⟩ := maxI_spec hm
  obtain ⟨lo, h4, h5⟩ := minI_spec hm
  have hlen : (masses fs).length = (toQ ((gElab fs).map (atLeast eth))).length := by simp [masses, gElab, toQ]
  obtain ⟨rows, r1, r2, r3, r4⟩ := massRows_spec hlen (hi + 1 - lo).toNat lo
  obtain ⟨f, hf, hfa⟩ := List.mem_map.mp h2
  have hb : ∀ f ∈ fs, lo ≤ f.a ∧ f.a ≤ hi := fun f hf =>
    ⟨h5 _ (List.mem_map_of_mem hf), h3 _ (List.mem_map_of_mem hf)⟩
  refine ⟨rows, lo, hi, ?_, hb, ⟨f, hf, hfa⟩, ?_, ?_⟩
  · unfold nubargA
    rw [h4]; simp only [Res.bind]
    rw [h1]; exact r1
  · apply List.ext_getElem
    · simp [r2]
    · intro i a b
      have ha : i < rows.length := by simpa using a
      have := (r3 i rows[i] (List.getElem?_eq_getElem ha)).1
      simp [this]
  · have hcount : ∀ r : Int × ℚ, (fs.filter fun f => decide (f.a = r.1)).length
        = ((masses fs).filter fun x => decide (x = r.1)).length := by
      intro r; unfold masses; rw [List.filter_map, List.length_map]; rfl
    simp only [hcount]
    rw [r4]
    have hz : (masses fs).zip (toQ ((gElab fs).map (atLeast eth)))
        = fs.map fun f => (f.a, ((f.phot.filter fun g => decide (eth ≤ g.e)).length : ℚ)) := by
      unfold masses toQ gElab
      rw [List.map_map, List.map_map, List.zip_map']
      apply List.map_congr_left
      intro f _
      simp [atLeast, List.filter_map, Function.comp_def]
    rw [hz, List.filter_eq_self.mpr, List.map_map]
    · rfl
    · intro x hx
      obtain ⟨f, hf, rfl⟩ := List.mem_map.mp hx
      have := hb f hf
      simp only [decide_eq_true_eq]
      omega

example : nubarA (flat [(tkFrag 100 [vx] [] 0, tkFrag 103 [vx, vy] [] 0), (tkFrag 100 [] [] 0, tkFrag 103 [vz] [] 0)])
    = .ok [(100, 1 / 2), (101, 0), (102, 0)] := by decide +kernel

example : ∃ rows, nubarA (flat tkEvents) = .ok rows ∧
    (rows.map fun r => (((flat tkEvents).filter fun f => decide (f.a = r.1)).length : ℚ) * r.2).sum
      ≠ ((flat tkEvents).map fun f => (f.nn : ℚ)).sum :=
  C56_refuted (flat tkEvents) (by decide +kernel) 139 (by decide +kernel) (by decide +kernel)

/-! ## C57 -/

/-- Scalar products of the directions of all unordered pairs of different neutrons. -/
def pairCosines (ns : List Vec4) : List ℚ := (distinct ns).map fun p => dot p.1 p.2

/-- Scalar product of every direction with itself. -/
def selfCosines (ns : List Vec4) : List ℚ := ns.map fun x => dot x x

/-- **C57**, partial: when every fragment has as many directions as neutrons, `nnangles` succeeds, and the lists for
light, heavy and all fragments contain, up to order, one cosine for each unordered pair of different
neutrons of the same fragment and, in addition, one for each neutron with itself. What is missing is that only
different neutrons are listed, which is false (`C57_refuted`). -/
theorem C57_pairs_partial (dirs : PyFrag → List Vec4) (ps : List (PyFrag × PyFrag))
    (hl : ∀ p ∈ ps, ((dirs p.1).length : Int) = p.1.nn ∧ ((dirs p.2).length : Int) = p.2.nn) :
    ∃ l h a, nnangles dirs (flat ps) = .ok (l, h, a) ∧
      l.Perm (ps.flatMap fun p => selfCosines (dirs p.1) ++ pairCosines (dirs p.1)) ∧
      h.Perm (ps.flatMap fun p => selfCosines (dirs p.2) ++ pairCosines (dirs p.2)) ∧
      a.Perm ((flat ps).flatMap fun f => selfCosines (dirs f) ++ pairCosines (dirs f)) := by
  have key : ∀ (ns : List Vec4) (nu : Int), (ns.length : Int) = nu →
      ∃ r, fragAngles ns nu = .ok r ∧ r.Perm (selfCosines ns ++ pairCosines ns) := by
    intro ns nu e
    obtain ⟨r, h1, h2⟩ := outer_spec ns ns.length 0 (by omega)
    refine ⟨r, ?_, ?_⟩
    · unfold fragAngles
      rw [← e, Int.toNat_natCast, h1]
    · simpa [selfCosines, pairCosines] using h2
  induction ps with
  | nil => exact ⟨[], [], [], rfl, .refl _, .refl _, .refl _⟩
  | cons p ps ih =>
      obtain ⟨l, h, a, e, pl, ph, pa⟩ := ih (fun q hq => hl q (by simp [hq]))
      obtain ⟨r1, e1, q1⟩ := key _ _ (hl p (by simp)).1
      obtain ⟨r2, e2, q2⟩ := key _ _ (hl p (by simp)).2
      have hf : flat (p :: ps) = p.1 :: p.2 :: flat ps := rfl
      refine ⟨r1 ++ l, r2 ++ h, r1 ++ r2 ++ a, ?_, ?_, ?_, ?_⟩
      · rw [hf, nnangles, e1]
        simp only [Res.bind]
        rw [e2]
        simp only []
        rw [e]
      · rw [List.flatMap_cons]; exact q1.append pl
      · rw [List.flatMap_cons]; exact q2.append ph
      · rw [hf, List.flatMap_cons, List.flatMap_cons, ← List.append_assoc]
        exact (q1.append q2).append pa

/-- **C57** fails for every history with a neutron: the list for all fragments is not the one of the pairs of
different neutrons, it is longer by the number of neutrons. -/
theorem C57_refuted (dirs : PyFrag → List Vec4) (ps : List (PyFrag × PyFrag))
    (hl : ∀ p ∈ ps, ((dirs p.1).length : Int) = p.1.nn ∧ ((dirs p.2).length : Int) = p.2.nn)
    (hn : ∃ f ∈ flat ps, dirs f ≠ []) :
    ∃ l h a, nnangles dirs (flat ps) = .ok (l, h, a) ∧
      a.length = ((flat ps).map fun f => (dirs f).length).sum + ((flat ps).flatMap fun f => pairCosines (dirs f)).length ∧
      ¬ a.Perm ((flat ps).flatMap fun f => pairCosines (dirs f)) := by
  obtain ⟨l, h, a, e, _, _, pa⟩ := C57_pairs_partial dirs ps hl
  have hlen : a.length = ((flat ps).map fun f => (dirs f).length).sum
      + ((flat ps).flatMap fun f => pairCosines (dirs f)).length := by
    rw [pa.length_eq]
    clear pa e hl hn
    induction flat ps with
    | nil => rfl
    | cons f fs ih =>
        simp only [List.flatMap_cons, List.length_append, List.map_cons, List.sum_cons] at ih ⊢
        rw [ih]
        simp only [selfCosines, List.length_map]
        omega
  refine ⟨l, h, a, e, hlen, ?_⟩
  intro hp
  obtain ⟨f, hf, hfn⟩ := hn
  have h1 := hp.length_eq
  have h2 : ((flat ps).map fun f => (dirs f).length).sum ≠ 0 := by
    intro h0
    have := List.sum_eq_zero_iff.mp h0 _ (List.mem_map_of_mem hf)
    exact hfn (List.length_eq_zero_iff.mp this)
  omega

/-- **C57**, the number of cosines of a fragment with `n` neutrons: `n(n+1)/2` instead of `n(n-1)/2`. -/
theorem C57_count (ns : List Vec4) : ∃ r, fragAngles ns ns.length = .ok r ∧
    2 * r.length = ns.length * (ns.length + 1) := by
  obtain ⟨r, h1, h2⟩ := outer_spec ns ns.length 0 (by omega)
  refine ⟨r, by unfold fragAngles; rw [Int.toNat_natCast, h1], ?_⟩
  rw [h2.length_eq]
  simp only [List.drop_zero, List.length_append, List.length_map]
  have := distinct_length ns
  rw [Nat.mul_add, this]
  cases ns.length with
  | zero => rfl
  | succ n => simp only [Nat.add_sub_cancel]; ring

/-- One neutron alone gives a "pair" with cosine one; two orthogonal ones give three values. -/
example : nnangles (·.lab) (flat [(tkFrag 100 [vx] [] 0, tkFrag 135 [vy, vz] [] 0)]) = .ok ([1], [1, 3 / 5, 1], [1, 1, 3 / 5, 1]) := by
  decide +kernel

example : ∃ l h a, nnangles (·.lab) (flat tkEvents) = .ok (l, h, a) ∧
    a.length = ((flat tkEvents).map fun f => f.lab.length).sum + ((flat tkEvents).flatMap fun f => pairCosines f.lab).length ∧
    ¬ a.Perm ((flat tkEvents).flatMap fun f => pairCosines f.lab) :=
  C57_refuted (·.lab) tkEvents (by decide +kernel) ⟨tkFrag 96 [vx, vy] [(1, 1 / 10), (2, 5)] 0, by decide +kernel, by decide +kernel⟩

/-! ## C58 -/

/-- Photons of an event of age at most `t` and energy at least `eth`. -/
def early (eth t : ℚ) (p : PyFrag × PyFrag) : Nat :=
  ((p.1.ages.zip (p.1.phot.map (·.e)) ++ p.2.ages.zip (p.2.phot.map (·.e))).filter
    fun x => decide (x.1 ≤ t) && decide (eth ≤ x.2)).length

/-- **C58.** For every history with an age for each photon, every threshold and every list of times,
`nubargtot` with these times is the average number per event of photons emitted until then. -/
theorem C58_time (eth : ℚ) (ts : List ℚ) (ps : List (PyFrag × PyFrag))
    (hl : ∀ p ∈ ps, p.1.ages.length = p.1.phot.length ∧ p.2.ages.length = p.2.phot.length) :
    nubargtotTime eth ts (flat ps) = .ok (ts.map fun t => average (fun p => (early eth t p : ℚ)) ps) ∧
      nubargTime eth ts (flat ps) = .ok (ts.map fun t => average (fun p => (early eth t p : ℚ)) ps) := by
  let w : PyFrag × PyFrag → List (ℚ × ℚ) := fun p =>
    p.1.ages.zip (p.1.phot.map (·.e)) ++ p.2.ages.zip (p.2.phot.map (·.e))
  have hw : ∀ p ∈ ps, (w p).map Prod.fst = p.1.ages ++ p.2.ages ∧
      (w p).map Prod.snd = p.1.phot.map (·.e) ++ p.2.phot.map (·.e) := by
    intro p hp
    obtain ⟨a, b⟩ := hl p hp
    simp only [w, List.map_append]
    rw [List.map_fst_zip (by simp [a]), List.map_fst_zip (by simp [b]), List.map_snd_zip (by simp [a]),
      List.map_snd_zip (by simp [b])]
    exact ⟨rfl, rfl⟩
  have ha : (ps.map fun p => p.1.ages ++ p.2.ages).flatten = (ps.flatMap w).map Prod.fst := by
    clear hl
    induction ps with
    | nil => rfl
    | cons p ps ih =>
        simp only [List.map_cons, List.flatten_cons, List.flatMap_cons, List.map_append]
        rw [ih (fun q hq => hw q (by simp [hq])), (hw p (by simp)).1]
  have he : (ps.map fun p => p.1.phot.map (·.e) ++ p.2.phot.map (·.e)).flatten = (ps.flatMap w).map Prod.snd := by
    clear hl ha
    induction ps with
    | nil => rfl
    | cons p ps ih =>
        simp only [List.map_cons, List.flatten_cons, List.flatMap_cons, List.map_append]
        rw [ih (fun q hq => hw q (by simp [hq])), (hw p (by simp)).2]
  have hfl : ∀ {β : Type} (f : PyFrag → List β), ((flat ps).map f).flatten = (ps.map fun p => f p.1 ++ f p.2).flatten := by
    intro β f
    clear hl hw ha he
    induction ps with
    | nil => rfl
    | cons p ps ih =>
        have : flat (p :: ps) = p.1 :: p.2 :: flat ps := rfl
        rw [this]
        simp only [List.map_cons, List.flatten_cons]
        rw [ih, List.append_assoc]
  have hcount : ∀ t, (((ps.flatMap w).filter fun x => decide (x.1 ≤ t) && decide (eth ≤ x.2)).length : ℚ)
      = (ps.map fun p => (early eth t p : ℚ)).sum := by
    intro t
    clear hl hw ha he hfl
    induction ps with
    | nil => rfl
    | cons p ps ih =>
        simp only [List.flatMap_cons, List.filter_append, List.length_append, List.map_cons, List.sum_cons] at ih ⊢
        push_cast at ih ⊢
        rw [ih]
        unfold early
        simp only [w, List.filter_append, List.length_append]
  constructor
  · unfold nubargtotTime gElab
    rw [(evens_flat _ ps).1, (evens_flat _ ps).2, (evens_flat _ ps).1, (evens_flat _ ps).2, bcast_map, bcast_map]
    simp only [Res.bind]
    rw [ha, he, untilAll_spec, events_flat]
    simp only [hcount, average]
  · unfold nubargTime gElab
    rw [hfl, hfl, ha, he, untilAll_spec, events_flat]
    simp only [hcount, average]

theorem early_mono (eth : ℚ) {t u : ℚ} (h : t ≤ u) (p : PyFrag × PyFrag) : early eth t p ≤ early eth u p := by
  unfold early
  apply List.Sublist.length_le
  apply List.monotone_filter_right
  intro x hx
  simp only [Bool.and_eq_true, decide_eq_true_eq] at hx ⊢
  exact ⟨hx.1.trans h, hx.2⟩

theorem average_mono {f g : PyFrag × PyFrag → ℚ} {ps : List (PyFrag × PyFrag)} (h : ∀ p ∈ ps, f p ≤ g p) :
    average f ps ≤ average g ps := by
  unfold average
  apply div_le_div_of_nonneg_right (List.sum_le_sum h) (by positivity)

theorem early_le (eth t : ℚ) (p : PyFrag × PyFrag) : early eth t p ≤ photons eth p := by
  have key : ∀ (as : List ℚ) (gs : List Vec4),
      ((as.zip (gs.map (·.e))).filter fun x => decide (x.1 ≤ t) && decide (eth ≤ x.2)).length
        ≤ (gs.filter fun g => decide (eth ≤ g.e)).length := by
    intro as
    induction as with
    | nil => intro gs; simp
    | cons a as ih =>
        intro gs
        cases gs with
        | nil => simp
        | cons g gs =>
            have := ih gs
            simp only [List.map_cons, List.zip_cons_cons, List.filter_cons]
            by_cases h1 : eth ≤ g.e
            · by_cases h2 : a ≤ t
              · rw [if_pos (by simp [h1, h2]), if_pos (by simpa using h1)]
                simpa only [List.length_cons, Nat.add_le_add_iff_right] using this
              · rw [if_neg (by simp [h2]), if_pos (by simpa using h1), List.length_cons]
                omega
            · rw [if_neg (by simp [h1]), if_neg (by simpa using h1)]
              exact this
  unfold early photons
  rw [List.filter_append, List.filter_append, List.length_append, List.length_append]
  exact Nat.add_le_add (key _ _) (key _ _)

theorem early_eq (eth t : ℚ) (p : PyFrag × PyFrag)
    (hl : p.1.ages.length = p.1.phot.length ∧ p.2.ages.length = p.2.phot.length)
    (ht : ∀ a ∈ p.1.ages ++ p.2.ages, a ≤ t) : early eth t p = photons eth p := by
  have key : ∀ (as : List ℚ) (gs : List Vec4), as.length = gs.length → (∀ a ∈ as, a ≤ t) →
      ((as.zip (gs.map (·.e))).filter fun x => decide (x.1 ≤ t) && decide (eth ≤ x.2)).length
        = (gs.filter fun g => decide (eth ≤ g.e)).length := by
    intro as
    induction as with
    | nil => intro gs h _; have := List.length_eq_zero_iff.mp h.symm; subst this; rfl
    | cons a as ih =>
        intro gs h ha
        cases gs with
        | nil => simp at h
        | cons g gs =>
            have := ih gs (by simpa using h) (fun b hb => ha b (by simp [hb]))
            have h2 := ha a (by simp)
            simp only [List.map_cons, List.zip_cons_cons, List.filter_cons]
            by_cases h1 : eth ≤ g.e
            · rw [if_pos (by simp [h1, h2]), if_pos (by simpa using h1), List.length_cons, List.length_cons, this]
            · rw [if_neg (by simp [h1]), if_neg (by simpa using h1), this]
  unfold early photons
  rw [List.filter_append, List.filter_append, List.length_append, List.length_append]
  rw [key _ _ hl.1 (fun a ha => ht a (by simp [ha])), key _ _ hl.2 (fun a ha => ht a (by simp [ha]))]

/-- **C58**, in terms of the results: with an age for each photon, the multiplicity until `t` is at most the one until
`u ≥ t` and at most `nubargtot`, and it is `nubargtot` once `t` exceeds every age. -/
theorem C58_monotone (eth t u : ℚ) (htu : t ≤ u) (ps : List (PyFrag × PyFrag)) (hne : ps ≠ [])
    (hl : ∀ p ∈ ps, p.1.ages.length = p.1.phot.length ∧ p.2.ages.length = p.2.phot.length) :
    ∃ x y z, nubargtotTime eth [t, u] (flat ps) = .ok [x, y] ∧ nubargtot eth (flat ps) = .ok z ∧
      0 ≤ x ∧ x ≤ y ∧ y ≤ z ∧ ((∀ p ∈ ps, ∀ a ∈ p.1.ages ++ p.2.ages, a ≤ u) → y = z) := by
  obtain ⟨P, _, _, h1, h2, _⟩ := C55_photons eth ps hne
  refine ⟨_, _, _, (C58_time eth [t, u] ps hl).1, h2 ▸ h1, ?_, ?_, ?_, ?_⟩
  · unfold average
    apply div_nonneg _ (by positivity)
    apply List.sum_nonneg
    intro x hx
    obtain ⟨p, _, rfl⟩ := List.mem_map.mp hx
    positivity
  · exact average_mono fun p _ => by exact_mod_cast early_mono eth htu p
  · exact average_mono fun p _ => by exact_mod_cast early_le eth u p
  · intro ha
    have : (ps.map fun p => (early eth u p : ℚ)) = ps.map fun p => (photons eth p : ℚ) :=
      List.map_congr_left fun p hp => by rw [early_eq eth u p (hl p hp) (ha p hp)]
    show average (fun p => (early eth u p : ℚ)) ps = _
    unfold average
    rw [this]

/-- **C58**, finding: `nubarg`, the average per fragment, is with a time window an average per event: after all
photons it is twice the value without one. -/
theorem C58_per_fragment (eth t : ℚ) (ps : List (PyFrag × PyFrag)) (hne : ps ≠ [])
    (hl : ∀ p ∈ ps, p.1.ages.length = p.1.phot.length ∧ p.2.ages.length = p.2.phot.length)
    (ht : ∀ p ∈ ps, ∀ a ∈ p.1.ages ++ p.2.ages, a ≤ t) :
    ∃ x z, nubargTime eth [t] (flat ps) = .ok [x] ∧ nubarg eth (flat ps) = .ok z ∧ x = 2 * z := by
  refine ⟨_, (toQ ((gElab (flat ps)).map (atLeast eth))).sum / (toQ ((gElab (flat ps)).map (atLeast eth))).length,
    (C58_time eth [t] ps hl).2, ?_, ?_⟩
  · unfold nubarg mean
    rw [if_neg]
    intro h
    have := congrArg List.length h
    simp only [toQ, gElab, List.length_map, flat_length, List.length_nil] at this
    exact hne (List.length_eq_zero_iff.mp (by omega))
  · have h1 : (toQ ((gElab (flat ps)).map (atLeast eth))).sum = (ps.map fun p => (early eth t p : ℚ)).sum := by
      clear hne
      induction ps with
      | nil => rfl
      | cons p ps ih =>
          have hf : flat (p :: ps) = p.1 :: p.2 :: flat ps := rfl
          have ih := ih (fun q hq => hl q (by simp [hq])) (fun q hq => ht q (by simp [hq]))
          have e := early_eq eth t p (hl p (by simp)) (ht p (by simp))
          rw [hf]
          simp only [gElab, toQ, List.map_cons, List.sum_cons] at ih ⊢
          rw [ih, e]
          unfold photons atLeast
          rw [List.filter_append, List.length_append, List.filter_map, List.filter_map, List.length_map, List.length_map]
          push_cast
          simp only [Function.comp_def]
          ring
    have h2 : (toQ ((gElab (flat ps)).map (atLeast eth))).length = 2 * ps.length := by
      simp [toQ, gElab, flat_length]
    rw [h1, h2]
    unfold average
    push_cast
    have : (ps.length : ℚ) ≠ 0 := by
      have := List.length_pos_iff.mpr hne
      positivity
    field_simp

example : nubargtotTime 1 [1, 4, 9] (flat tkEvents) = .ok [2 / 3, 1, 5 / 3] ∧ nubargtot 1 (flat tkEvents) = .ok (5 / 3) ∧
    nubarg 1 (flat tkEvents) = .ok (5 / 6) ∧ nubargTime 1 [9] (flat tkEvents) = .ok [5 / 3] := by decide +kernel

/-! ## C68 -/

/-- **C68.** For every choice of fragments with an age for each photon and increasing time edges, `gammaMultiplicity` counts
every photon of those fragments above the threshold with an age between the first and the last edge,
ends included, exactly once. -/
theorem C68_counts (sel : PyFrag → Bool) (eth a b : ℚ) (es : List ℚ) (fs : List PyFrag)
    (hl : ∀ f ∈ fs, f.ages.length = f.phot.length) (hs : (a :: b :: es).Pairwise (· < ·)) :
    ∃ h, gammaMultiplicity sel eth (a :: b :: es) fs = .ok h ∧ h.length = es.length + 1 ∧
      h.sum = (((fs.filter sel).flatMap fun f => (f.phot.map (·.e)).zip f.ages).filter fun x =>
        decide (eth ≤ x.1) && (decide (a ≤ x.2) && decide (∀ z ∈ (b :: es).getLast?, x.2 ≤ z))).length := by
  have hl' : ∀ f ∈ fs.filter sel, f.ages.length = f.phot.length := fun f hf => hl f (List.mem_filter.mp hf).1
  unfold gammaMultiplicity
  generalize fs.filter sel = gs at hl'
  have key : (gElab gs).flatten.length = (gs.map (·.ages)).flatten.length ∧
      (gElab gs).flatten.zip (gs.map (·.ages)).flatten = gs.flatMap fun f => (f.phot.map (·.e)).zip f.ages := by
    unfold gElab
    induction gs with
    | nil => exact ⟨rfl, rfl⟩
    | cons f gs ih =>
        obtain ⟨i1, i2⟩ := ih (fun g hg => hl' g (by simp [hg]))
        have := hl' f (by simp)
        simp only [List.map_cons, List.flatten_cons, List.flatMap_cons, List.length_append]
        refine ⟨by rw [i1]; simp [this], ?_⟩
        rw [List.zip_append (by simp [this]), i2]
  rw [select_run key.1, key.2]
  simp only [Res.bind]
  refine ⟨_, rfl, ?_, ?_⟩
  · clear hs
    induction es generalizing a b with
    | nil => rfl
    | cons c es ih => rw [histogram, List.length_cons, ih b c]; rfl
  · rw [histogram_sum _ es a b hs, List.filter_map, List.length_map, List.filter_filter]
    congr 1
    apply List.filter_congr
    intro x _
    simp only [Function.comp_def, Bool.and_comm]

/-- Bin `i` of a histogram counts the values from edge `i` to edge `i + 1`, the upper end only in the last bin. -/
theorem histogram_at (xs : List ℚ) : ∀ (es : List ℚ) (i : Nat) (lo hi : ℚ), es[i]? = some lo → es[i + 1]? = some hi →
    (histogram xs es)[i]? = some (xs.filter fun x => decide (lo ≤ x ∧ (x < hi ∨ (i + 2 = es.length ∧ x = hi)))).length
  | [], i, lo, hi, h, _ => by simp at h
  | [a], i, lo, hi, _, h => by simp at h
  | [a, b], i, lo, hi, h, h' => by
    cases i with
    | succ i => simp at h'
    | zero =>
      simp at h h'
      subst h h'
      rw [histogram]
      simp only [List.getElem?_cons_zero, Option.some.injEq]
      congr 1
      apply List.filter_congr
      intro x _
      rw [← Bool.decide_and, decide_eq_decide, le_iff_lt_or_eq (a := x)]
      simp
  | a :: b :: c :: es, i, lo, hi, h, h' => by
    cases i with
    | zero =>
      simp at h h'
      subst h h'
      rw [histogram]
      simp only [List.getElem?_cons_zero, Option.some.injEq]
      congr 1
      apply List.filter_congr
      intro x _
      rw [← Bool.decide_and, decide_eq_decide]
      simp
    | succ i =>
      have := histogram_at xs (b :: c :: es) i lo hi (by simpa using h) (by simpa using h')
      rw [histogram, List.getElem?_cons_succ, this]
      simp [Nat.add_right_comm]

/-- **C68.** Bin by bin: bin `i` counts the photons of the chosen fragments above the threshold with an age from edge `i` up to, but not
including, edge `i + 1`; the last bin includes its upper end. -/
theorem C68_bins (sel : PyFrag → Bool) (eth : ℚ) (es : List ℚ) (fs : List PyFrag)
    (hl : ∀ f ∈ fs, f.ages.length = f.phot.length) (i : Nat) (lo hi : ℚ) (h1 : es[i]? = some lo) (h2 : es[i + 1]? = some hi) :
    ∃ h, gammaMultiplicity sel eth es fs = .ok h ∧
      h[i]? = some (((fs.filter sel).flatMap fun f => (f.phot.map (·.e)).zip f.ages).filter fun x =>
        decide (eth ≤ x.1) && decide (lo ≤ x.2 ∧ (x.2 < hi ∨ (i + 2 = es.length ∧ x.2 = hi)))).length := by
  have hl' : ∀ f ∈ fs.filter sel, f.ages.length = f.phot.length := fun f hf => hl f (List.mem_filter.mp hf).1
  unfold gammaMultiplicity
  generalize fs.filter sel = gs at hl'
  have key : (gElab gs).flatten.length = (gs.map (·.ages)).flatten.length ∧
      (gElab gs).flatten.zip (gs.map (·.ages)).flatten = gs.flatMap fun f => (f.phot.map (·.e)).zip f.ages := by
    unfold gElab
    induction gs with
    | nil => exact ⟨rfl, rfl⟩
    | cons f gs ih =>
        obtain ⟨i1, i2⟩ := ih (fun g hg => hl' g (by simp [hg]))
        have := hl' f (by simp)
        simp only [List.map_cons, List.flatten_cons, List.flatMap_cons, List.length_append]
        refine ⟨by rw [i1]; simp [this], ?_⟩
        rw [List.zip_append (by simp [this]), i2]
  rw [select_run key.1, key.2]
  simp only [Res.bind]
  refine ⟨_, rfl, ?_⟩
  rw [histogram_at _ es i lo hi h1 h2, List.filter_map, List.length_map, List.filter_filter]
  congr 2
  apply List.filter_congr
  intro x _
  simp only [Function.comp_def, Bool.and_comm]

/-- Ages 1/10, 5, 2, 3, 1 and 9 of photons of energy 1, 2, 1/2, 1, 1 and 4. -/
example : gammaMultiplicity (fun _ => true) 1 [0, 1, 5] (flat tkEvents) = .ok [1, 3] ∧
    gammaMultiplicity (fun _ => true) 0 [0, 1, 5, 10] (flat tkEvents) = .ok [1, 3, 2] ∧
    gammaMultiplicity (fun f => decide (f.a - f.nn = 138)) 0 [0, 1, 5, 10] (flat tkEvents) = .ok [0, 2, 1] := by
  decide +kernel

/-! ## C69 -/

/-- **C69.** On every increasing energy grid on which a neutron lies, the spectrum returned by `pfns` has no negative
entry and integrates to one. -/
theorem C69_normalised (a b : ℚ) (es xs : List ℚ) (hs : (a :: b :: es).Pairwise (· < ·))
    (hx : ∃ x ∈ xs, a ≤ x ∧ ∀ z ∈ (b :: es).getLast?, x ≤ z) :
    ∃ y, spectrum (a :: b :: es) xs = .ok y ∧ (∀ v ∈ y, 0 ≤ v) ∧
      (List.zipWith (fun (v w : ℚ) => v * w) y
        (List.zipWith (fun q p => q - p) (b :: es) (a :: b :: es))).sum = 1 := by
  have hsum := histogram_sum xs es a b hs
  have hpos : (histogram xs (a :: b :: es)).sum ≠ 0 := by
    rw [hsum]
    obtain ⟨x, hx, h1, h2⟩ := hx
    intro h0
    have := List.length_eq_zero_iff.mp h0
    rw [List.filter_eq_nil_iff] at this
    exact this x hx (by simp only [Bool.and_eq_true, decide_eq_true_eq]; exact ⟨h1, h2⟩)
  have hlen : ∀ (es : List ℚ) (a b : ℚ), (histogram xs (a :: b :: es)).length = es.length + 1 := by
    intro es
    induction es with
    | nil => intro a b; rfl
    | cons c es ih => intro a b; rw [histogram, List.length_cons, ih b c]; rfl
  have hw : ∀ w ∈ List.zipWith (fun q p => q - p) (b :: es) (a :: b :: es), 0 < w := by
    clear hpos hsum hx hlen
    induction es generalizing a b with
    | nil =>
        intro w h
        simp at h
        have := (List.pairwise_cons.mp hs).1 b (by simp)
        rw [h]; linarith
    | cons c es ih =>
        intro w h
        rw [List.zipWith_cons_cons, List.mem_cons] at h
        rcases h with rfl | h
        · have := (List.pairwise_cons.mp hs).1 b (by simp)
          linarith
        · exact ih b c (List.pairwise_cons.mp hs).2 w h
  have hwl : (List.zipWith (fun q p => q - p) (b :: es) (a :: b :: es)).length = es.length + 1 := by
    rw [List.length_zipWith]; simp
  unfold spectrum
  simp only [List.tail_cons]
  rw [if_neg hpos]
  have hl := hlen es a b
  generalize histogram xs (a :: b :: es) = h at *
  generalize List.zipWith (fun q p => q - p) (b :: es) (a :: b :: es) = ws at *
  have hN : (0 : ℚ) < (h.sum : Nat) := by exact_mod_cast Nat.pos_of_ne_zero hpos
  generalize hNe : ((h.sum : Nat) : ℚ) = N at hN ⊢
  refine ⟨_, rfl, ?_, ?_⟩
  · intro v hv
    obtain ⟨i, hi, rfl⟩ := List.mem_iff_getElem.mp hv
    rw [List.getElem_zipWith]
    have := hw _ (List.getElem_mem (by simp at hi; omega : i < ws.length))
    positivity
  · have key : ∀ (h : List Nat) (ws : List ℚ), h.length = ws.length → (∀ w ∈ ws, 0 < w) →
        (List.zipWith (fun (v w : ℚ) => v * w) (List.zipWith (fun (c : Nat) (w : ℚ) => (c : ℚ) / w / N) h ws) ws).sum
          = (h.sum : Nat) / N := by
      intro h
      induction h with
      | nil => intro ws _ _; simp
      | cons c h ih =>
          intro ws hl hw
          cases ws with
          | nil => simp at hl
          | cons w ws =>
              have := hw w (by simp)
              simp only [List.zipWith_cons_cons, List.sum_cons]
              rw [ih ws (by simpa using hl) (fun v hv => hw v (by simp [hv]))]
              push_cast
              field_simp
    rw [key h ws (by omega) hw, hNe]
    exact div_self hN.ne'

/-- **C69.** Value by value: in the bin from `lo` to `hi` the spectrum is the number of neutrons there (the last bin includes its upper
end) divided by the width and by the number of all neutrons on the grid. -/
theorem C69_value (a b : ℚ) (es xs y : List ℚ) (hs : (a :: b :: es).Pairwise (· < ·)) (h : spectrum (a :: b :: es) xs = .ok y)
    (i : Nat) (lo hi : ℚ) (h1 : (a :: b :: es)[i]? = some lo) (h2 : (a :: b :: es)[i + 1]? = some hi) :
    y[i]? = some (((xs.filter fun x => decide (lo ≤ x ∧ (x < hi ∨ (i + 2 = (a :: b :: es).length ∧ x = hi)))).length : ℚ) / (hi - lo) /
      ((xs.filter fun x => decide (a ≤ x) && decide (∀ z ∈ (b :: es).getLast?, x ≤ z)).length : ℚ)) := by
  unfold spectrum at h
  simp only at h
  split_ifs at h
  cases h
  rw [List.getElem?_zipWith, histogram_at xs _ i lo hi h1 h2, List.getElem?_zipWith, List.getElem?_tail, h1, h2, histogram_sum xs es a b hs]

/-- **C69**, the neutrons that enter: `pfns` of a history is the spectrum of all neutrons of all events, pre-fission
ones included, that are not below the threshold. -/
theorem C69_neutrons (eth : ℚ) (edges : List ℚ) (ps : List (PyFrag × PyFrag)) :
    pfns eth edges (flat ps) = spectrum edges ((ps.flatMap fun p =>
      p.2.lab.map (·.e) ++ p.1.lab.map (·.e) ++ p.2.pren.map (·.e)).filter fun x => decide (eth ≤ x)) := by
  unfold pfns nElab preElab
  rw [(evens_flat _ ps).1, (evens_flat _ ps).2, bcast_map]
  simp only [Res.bind]
  rw [(evens_flat _ ps).2, bcast_map]
  simp only [List.flatMap_def]

example : pfns 0 [0, 1, 2, 4] (flat tkEvents) = .ok [0, 1 / 4, 3 / 8] ∧
    pfns 5 [0, 1, 2, 4] (flat tkEvents) = .ub := by decide +kernel

/-! ## C70 -/

/-- Fragments of the nucleus `(A, Z)` after emission. -/
def nucleus (A Z : Int) (fs : List PyFrag) : List PyFrag :=
  fs.filter fun f => decide (f.a - f.nn = A) && decide (f.z = Z)

/-- **C70.** `isomericRatio` of a nucleus that occurs is between zero and one, the values for the two orders of the spins add
up to one, and for the higher isomer spin it is the fraction of fragments with a photon not before the threshold
time. -/
theorem C70_ratio (thr : ℚ) (A Z : Int) (Jm Jgs : ℚ) (fs : List PyFrag) (h : nucleus A Z fs ≠ []) :
    ∃ r, isomericRatio thr A Z Jm Jgs fs = .ok r ∧ 0 ≤ r ∧ r ≤ 1 ∧
      (Jm ≠ Jgs → isomericRatio thr A Z Jgs Jm fs = .ok (1 - r)) ∧
      (Jgs < Jm → r * (nucleus A Z fs).length
        = ((nucleus A Z fs).filter fun f => f.ages.any fun t => decide (thr ≤ t)).length) := by
  have hn : (nucleus A Z fs).length ≠ 0 := fun e => h (List.length_eq_zero_iff.mp e)
  have hN : (0 : ℚ) < (nucleus A Z fs).length := by exact_mod_cast Nat.pos_of_ne_zero hn
  have hle : (((nucleus A Z fs).filter fun f => f.ages.any fun t => decide (thr ≤ t)).length : ℚ)
      ≤ (nucleus A Z fs).length := by exact_mod_cast List.length_filter_le _ _
  have run : ∀ x y, isomericRatio thr A Z x y fs
      = if y < x then .ok ((((nucleus A Z fs).filter fun f => f.ages.any fun t => decide (thr ≤ t)).length : ℚ) / (nucleus A Z fs).length)
        else .ok (1 - (((nucleus A Z fs).filter fun f => f.ages.any fun t => decide (thr ≤ t)).length : ℚ) / (nucleus A Z fs).length) := by
    intro x y
    unfold isomericRatio
    exact if_neg hn
  have h0 : (0 : ℚ) ≤ (((nucleus A Z fs).filter fun f => f.ages.any fun t => decide (thr ≤ t)).length : ℚ) := by positivity
  have hq0 := div_nonneg h0 hN.le
  have hq1 := (div_le_one hN).mpr hle
  by_cases hj : Jgs < Jm
  · refine ⟨_, by rw [run, if_pos hj], hq0, hq1, ?_, ?_⟩
    · intro _
      rw [run, if_neg (not_lt.mpr hj.le)]
    · intro _
      exact div_mul_cancel₀ _ hN.ne'
  · refine ⟨_, by rw [run, if_neg hj], by linarith, by linarith, ?_, fun h => absurd h hj⟩
    intro hne
    rw [run, if_pos (lt_of_le_of_ne (not_lt.mp hj) hne)]
    congr 1
    ring

/-- **C70**, the nucleus does not occur: a division by zero, whatever the spins. -/
theorem C70_absent (thr : ℚ) (A Z : Int) (Jm Jgs : ℚ) (fs : List PyFrag) (h : nucleus A Z fs = []) :
    isomericRatio thr A Z Jm Jgs fs = .exit := by
  unfold isomericRatio
  exact if_pos (by rw [← nucleus, h]; rfl)

example : isomericRatio 3 138 40 (11 / 2) (3 / 2) (flat tkEvents) = .ok (1 / 2) ∧
    isomericRatio 1 94 40 (11 / 2) (3 / 2) (flat tkEvents) = .ok 1 ∧
    isomericRatio 1 94 40 (3 / 2) (11 / 2) (flat tkEvents) = .ok 0 ∧
    isomericRatio 1 120 40 (3 / 2) (11 / 2) (flat tkEvents) = .exit := by decide +kernel

end CGMF.Props
