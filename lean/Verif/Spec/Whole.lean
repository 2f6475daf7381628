import Verif.Model.Whole
import Verif.Spec.Runs
import Verif.Spec.Isotropy
import Verif.Spec.Initial

/-!
# What is asked of a whole event

For each fragment: the particles emitted, with their energies, and the directions of the neutrons and photons in the frame of the
nucleus that emits them.
-/

namespace CGMF.Whole

open CGMF.MC CGMF.Kin CGMF.HF CGMF.Isotropy MeasureTheory

/-- What is asked of a fragment: its decay, and a set of directions for every neutron and every photon. -/
structure Ask where
  w : Want
  ns : List (Set V3)
  gs : List (Set V3)

/-- Neutrons, photons and conversion electrons of a decay. -/
def neutrons (w : Want) : Nat := (w.cs.filter fun c => c.1 = .neutron).length
def photons (w : Want) : Nat := (w.cs.filter fun c => c.1 = .gamma).length + (w.q.filter fun x => x.2 = false).length
def electrons (w : Want) : Nat := (w.q.filter fun x => x.2 = true).length

/-- Probability of the decay times the shares of the directions. -/
noncomputable def Ask.chance (q : Ask) (par : Par ℝ) (E : ℝ) (j p : Int) : ENNReal :=
  decayChance par E j p q.w * ((q.ns.map solid).prod * (q.gs.map solid).prod)

/-- The history is the one asked for, and so are the directions. -/
def Ask.Shows (q : Ask) (hs : List (Hist ℝ)) (b : Boosted) : Prop :=
  Records q.w.c q.w.cs q.w.q hs ∧ List.Forall₂ (fun e S => unitDir e.vcm ∈ S) b.n q.ns ∧
    List.Forall₂ (fun g T => unitDir g.cm ∈ T) b.g q.gs

/-- Conditions on the particles asked for: the exact circle, neutrons lighter than the nuclei that emit them, neutron energies up to
`top` and photon energies in sets of positive numbers, level schemes that go down in energy, arrays that hold the particles, and a
fragment of momentum up to `P` that cannot reach the speed of light. -/
structure Flies (g : Cfg) (par : Par ℝ) (z a : Int) (P top : ℝ) (q : Ask) : Prop where
  circle : g.k.twopi = 2 * Real.pi
  neutron : 0 < g.k.mn
  masses : ∀ i : Nat, i < neutrons q.w → ∃ m, g.k.mass z (a - i) = .ok m ∧ g.k.mn ≤ m
  mass : ∃ m, g.k.mass z a = .ok m
  slow : ∃ mf, g.k.massT z (a - neutrons q.w) = .ok mf ∧ P + neutrons q.w * √(2 * g.k.mn * top) < mf
  speed : 0 ≤ P
  energy : ∀ c ∈ q.w.cs, ∀ e ∈ c.2, 0 < e ∧ (c.1 = .neutron → e ≤ top)
  kinds : ∀ c ∈ q.w.cs, c.1 ≠ .ic
  down : ∀ n ∈ par.chain, ∀ (i : Nat) (l : Level ℝ), n.levels[i]? = some l → ∀ b ∈ l.branches, ∀ l1, n.levels[b.fstate]? = some l1 →
    l1.energy < l.energy
  delay : ∀ r, 0 < r → r ≤ 1 → 0 ≤ par.delay r
  count : q.ns.length = neutrons q.w ∧ q.gs.length = photons q.w
  fits : neutrons q.w ≤ g.nn ∧ photons q.w ≤ g.ng ∧ electrons q.w ≤ g.ni
  sets : (∀ S ∈ q.ns, MeasurableSet S) ∧ ∀ S ∈ q.gs, MeasurableSet S

/-- Conditions on a whole event of pair `p` with kinetic energies in `S`, spin indices `i` and `j` and parities `a` and `b`: below the
energies `El` and `Eh` the decays of both fragments are of the kind covered by `Ready`; for all the kinetic energies of `S` the
fragments have at most these energies and the chains of nuclei `cl` and `ch`, and momenta up to `Pl` and `Ph`. -/
structure Fits (g : Cfg) (v : Frag.Env ℝ PfnOut) (fuel : Nat) (a0 : Int) (c : Pre.Comp ℝ) (p : Frag.Pair) (E e0 : ℝ) (S : Set ℝ) (N : Nat)
    (i j : Nat) (a b : Int) (ql qh : Ask) (cl ch : List (Nuc ℝ)) : Prop where
  decays : ∃ El Eh, HF.Ready N { g.par p.zl p.al with chain := cl } El i ql.w ∧ HF.Ready N { g.par p.zh p.ah with chain := ch } Eh j qh.w ∧
    ∀ t ∈ S, e0 ≤ t → t ≤ E → ∀ u bl bh, Law.Shared v fuel p (E - t) u bl bh → u.1 ≠ 0 → u.2 ≠ 0 → u.1 ≤ El ∧ u.2 ≤ Eh ∧
      IsChain ⟨g.tb, g.par p.zl p.al, p.zl, p.al, u.1, i, a⟩ cl ∧ IsChain ⟨g.tb, g.par p.zh p.ah, p.zh, p.ah, u.2, j, b⟩ ch
  flights : ∃ Pl Ph tl th, Flies g { g.par p.zl p.al with chain := cl } p.zl p.al Pl tl ql ∧
    Flies g { g.par p.zh p.ah with chain := ch } p.zh p.ah Ph th qh ∧
    ∀ t ∈ S, ∀ l m l', v.boost t p (a0 - c.ac) l = .ok (m, l') → lenSq m.light ≤ Pl ^ 2 ∧ lenSq m.heavy ≤ Ph ^ 2

end CGMF.Whole
