import Verif.Proofs.Fragment
import Verif.Props.Demo

/-!
# C23, C26, C27: the chain of nuclei reached by neutron emission
-/

namespace CGMF.Props

open CGMF CGMF.Grid CGMF.HF CGMF.MC

variable {K : Type} [Field K] [LinearOrder K] [IsStrictOrderedRing K]

/-- **C26.**  The number of neutrons considered for a fragment: removing any smaller positive number
of neutrons costs less than the excitation energy, and one more neutron would not, unless the limit
`MAX_COMPOUND - 1` (or the ten passes of the loop) is reached. -/
theorem C26_open_neutrons (tb : Tables K) (M : Int → Int → K)
    (hM : ∀ z a v, tb.mx z a = .ok v → v = M z a) (hc : 0 < tb.maxc) (hc10 : tb.maxc ≤ 10) (z a : Int)
    (E : K) (n : Nat) (h : totalNeutrons tb z a E = .ok n) :
    n ≤ tb.maxc - 1 ∧ (∀ k, 1 ≤ k → k ≤ n → sepSum M tb.en z a k < E) ∧
    (n < tb.maxc - 1 → E ≤ sepSum M tb.en z a (n + 1)) := by
  obtain ⟨h1, -, -, h3, h4⟩ := totalNeutrons_ok hM hc h
  exact ⟨by omega, h3, fun hn => h4 (by omega) (by omega)⟩

/-- **C26**, when every separation energy is non-negative: `n` is the largest number of neutrons (up to
the limit) whose removal costs less than the excitation energy. -/
theorem C26_largest (tb : Tables K) (M : Int → Int → K)
    (hM : ∀ z a v, tb.mx z a = .ok v → v = M z a) (hc : 0 < tb.maxc) (hc10 : tb.maxc ≤ 10) (z a : Int)
    (E : K) (hE : 0 < E) (hS : ∀ k : Nat, 0 ≤ M z (a - (k + 1)) + tb.en - M z (a - k)) (n : Nat)
    (h : totalNeutrons tb z a E = .ok n) :
    IsGreatest {k : Nat | k ≤ tb.maxc - 1 ∧ sepSum M tb.en z a k < E} n := by
  obtain ⟨h1, h2, h3⟩ := C26_open_neutrons tb M hM hc hc10 z a E n h
  have mono : ∀ i j : Nat, i ≤ j → sepSum M tb.en z a i ≤ sepSum M tb.en z a j := by
    intro i j hij
    induction hij with
    | refl => exact le_rfl
    | @step m _ ih =>
      refine ih.trans ?_
      have := hS m
      unfold sepSum
      push_cast
      linarith
  refine ⟨⟨h1, ?_⟩, ?_⟩
  · rcases Nat.eq_zero_or_pos n with h0 | h0
    · subst h0
      simpa [sepSum] using hE
    · exact h2 n h0 le_rfl
  · rintro k ⟨hk1, hk2⟩
    by_contra hc
    have := h3 (by omega)
    have := mono (n + 1) k (by omega)
    linarith

/-- 10 MeV and 6 MeV per neutron: one neutron; 6 MeV exactly: none; 100 MeV: nine. -/
example : totalNeutrons Demo.tb 50 132 10 = .ok 1 ∧ totalNeutrons Demo.tb 50 132 6 = .ok 0 ∧
    totalNeutrons Demo.tb 50 132 100 = .ok 9 := by decide +kernel

/-- Below a bound neutron with a loosely bound one after it (separation energies 6 and -2) the count
stops at the first neutron that is not open. -/
example : totalNeutrons (⟨fun _ a => .ok (if a = 132 then 0 else if a = 131 then -2 else -12), 8,
    fun _ _ => [], 10⟩ : Tables ℚ) 50 132 5 = .ok 0 := by decide +kernel

/-- **C27.**  The nuclei set up for a fragment: as many as neutrons plus one, all of the fragment's
charge, masses descending by one; separation energies telescope to the mass difference. -/
theorem C27_chain (tb : Tables K) (M : Int → Int → K) (hM : ∀ z a v, tb.mx z a = .ok v → v = M z a)
    (stale : Nat → K) (z a : Int) (nemit : Nat) (E : K) (chain : List (Nuc K))
    (h : initSystem tb stale z a nemit E = .ok chain) :
    chain.length = nemit + 1 ∧
    (∀ (i : Nat) (n : Nuc K), chain[i]? = some n → n.Z = z ∧ n.A = a - i) ∧
    (∀ k ≤ nemit, ((chain.take k).map (·.sn)).sum = M z (a - k) + k * tb.en - M z a) := by
  obtain ⟨h1, -, h3⟩ := initSystem_ok hM h
  refine ⟨h1, fun i n hn => ⟨(h3 i n hn).1, (h3 i n hn).2.1⟩, ?_⟩
  intro k hk
  have hs := initSystem_sum hM h k hk
  rw [show M z (a - k) + k * tb.en - M z a = sepSum M tb.en z a k from rfl, ← hs]
  congr 1
  apply List.ext_getElem?
  intro i
  simp only [List.getElem?_map, List.getElem?_take]
  rcases Nat.lt_or_ge i k with hi | hi
  · have hg : chain[i]? = some chain[i] := by simp
    rw [if_pos hi, List.getElem?_range hi, hg]
    simp only [Option.map_some, snOf, hg]
  · rw [if_neg (by omega), List.getElem?_eq_none (by simpa using hi)]; rfl

/-- **C27**, with the number of neutrons the code counts: the set-up succeeds, every neutron channel
but the last one is open and leads to the next nucleus. -/
theorem C27_channels (tb : Tables K) (M : Int → Int → K) (hM : ∀ z a v, tb.mx z a = .ok v → v = M z a)
    (hc : 0 < tb.maxc) (stale : Nat → K) (z a : Int) (E : K) (n : Nat) (h : totalNeutrons tb z a E = .ok n) :
    ∃ chain, initSystem tb stale z a n E = .ok chain ∧
      ∀ (i : Nat) (x : Nuc K), chain[i]? = some x → (x.status = true ↔ i < n) ∧ x.next = i + 1 ∧
        x.levels = tb.levels z (a - i) := by
  obtain ⟨chain, h1⟩ := initSystem_total (stale := stale) hM hc h
  obtain ⟨-, -, h3⟩ := initSystem_ok hM h1
  exact ⟨chain, h1, fun i x hx => ⟨initSystem_status hM hc h h1 i x hx, (h3 i x hx).2.2.2.1, (h3 i x hx).2.2.1⟩⟩

example : ∃ chain, initSystem Demo.tb (fun _ => 0) 50 132 2 13 = .ok chain ∧
    chain.map (fun n => (n.Z, n.A, n.sn, n.status)) =
      [(50, 132, 6, true), (50, 131, 6, true), (50, 130, 0, false)] :=
  ⟨_, rfl, by decide +kernel⟩

/-- **C23.**  At the end of the decay of fragment `(z, a)` the last entry is a level of nucleus
`(z, a - nu)`, where `nu` is the number of reported neutrons, and `nu` does not exceed the number of
neutrons that were open at the start, hence not `MAX_COMPOUND - 1`. -/
theorem C23_residual (tb : Tables K) (M : Int → Int → K) (hM : ∀ z a v, tb.mx z a = .ok v → v = M z a)
    (hc : 0 < tb.maxc) (par : Par K) (hw : 0 < par.w) (st st' : St K) (stale : Nat → K) (z a : Int)
    (hel : 0 ≤ elmax (tb.levels z a)) (E : K) (jint p0 : Int) (s s' : List K)
    (h : fragment tb par st stale z a E jint p0 s = .ok (st', s')) (nn ng ni : Nat) (r : Rec K)
    (hr : record nn ng ni st' = .ok r) :
    ∃ nmax last l, totalNeutrons tb z a E = .ok nmax ∧ r.n.length ≤ nmax ∧ nmax ≤ tb.maxc - 1 ∧
      st'.hs.getLast? = some last ∧ last.mp.n = r.n.length ∧
      (tb.levels z (a - r.n.length))[last.mp.k]? = some l ∧ last.mp.e = l.energy := by
  obtain ⟨nmax, hs, f, l, start, h1, h2, h3, h4, -⟩ := fragment_path hM hw hel h
  obtain ⟨-, r1, -⟩ := record_ok hr
  have hd : st'.hs.dropLast = hs := by rw [h3]; simp
  have hn : r.n.length = countN hs := by rw [r1, hd, energies_countN]
  obtain ⟨b1, -⟩ := totalNeutrons_ok hM hc h1
  refine ⟨nmax, ⟨.gamma, 0, levelPoint (countN hs) f l⟩, l, h1, by omega, by omega, ?_, ?_, ?_, rfl⟩
  · rw [h3]; simp
  · rw [hn]; rfl
  · rw [hn]; exact h4

/-- The example decay: one neutron, two photons, the second one after a delay; the residual nucleus is
the one of mass 131 in its ground state. -/
example : ∃ st' s' r, fragment Demo.tb Demo.par Demo.st (fun _ => 0) 50 132 10 1 1 Demo.draws = .ok (st', s') ∧
    record 10 50 50 st' = .ok r ∧ r = ⟨[13 / 6], [(5 / 6, 0), (1, 8 / 5)], []⟩ := by
  obtain ⟨st', s', h1, h2⟩ := Demo.run_ok
  exact ⟨st', s', _, h1, h2, rfl⟩

end CGMF.Props
