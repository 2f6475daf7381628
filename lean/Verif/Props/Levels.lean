import Verif.Proofs.Ripl
import Verif.Spec.Cascade

/-!
# Discrete level data: C28, C29, C67
-/

set_option linter.unusedSectionVars false

namespace CGMF.Props

open CGMF.Ripl CGMF.Spec CGMF.Event

variable {K : Type} [Field K] [LinearOrder K] [IsStrictOrderedRing K]

/-- Branching ratios of one level: at least one, non-negative, adding up to one, photon fractions in
`(0, 1]`. -/
def Normalised (l : Level K) : Prop :=
  l.branches ≠ [] ∧ (∀ b ∈ l.branches, 0 ≤ b.branch ∧ 0 < b.gratio ∧ b.gratio ≤ 1) ∧
    (l.branches.map (·.branch)).sum = 1

/-- The records of a nucleus carry non-negative intensities and conversion coefficients. -/
def NonnegRecords (rs : List (Raw K)) : Prop := ∀ r ∈ rs, ∀ g ∈ r.gammas, 0 ≤ g.pe ∧ 0 ≤ g.ic

theorem daughters_ne {mb : Nat} (hmb : 2 ≤ mb) {r : Raw K} {below : List (Raw K)} {ds : List Nat}
    (h : Daughters mb r below ds) : ds ≠ [] := by
  unfold Daughters at h
  by_cases h1 : below.length = 1
  · rw [if_pos h1] at h; simp [h]
  · rw [if_neg h1] at h
    simp only at h
    split at h
    · rename_i hne
      rw [h]
      intro h0
      rcases List.take_eq_nil_iff.mp h0 with h | h
      · omega
      · exact hne h
    · rcases h with ⟨d, _, h⟩ | ⟨_, h⟩ <;> simp [h]

theorem daughters_lt {mb : Nat} {r : Raw K} {below : List (Raw K)} {ds : List Nat}
    (h : Daughters mb r below ds) : ∀ d ∈ ds, d = 0 ∨ d < below.length := by
  unfold Daughters at h
  intro d hd
  by_cases h1 : below.length = 1
  · rw [if_pos h1] at h; subst h; left; simpa using hd
  · rw [if_neg h1] at h
    simp only at h
    split at h
    · subst h
      have := List.mem_of_mem_take hd
      right
      simpa using (List.mem_filter.mp this).1
    · rcases h with ⟨e, ⟨l, hl, _⟩, h⟩ | ⟨_, h⟩
      · subst h
        simp at hd; subst hd
        right
        by_contra hc
        rw [List.getElem?_eq_none (by omega)] at hl; cases hl
      · subst h; left; simpa using hd

theorem sum_shares (n : Nat) (hn : n ≠ 0) : (List.replicate n (1 / (n : K))).sum = 1 := by
  have : (n : K) ≠ 0 := by exact_mod_cast hn
  simp [this]

theorem madeFrom_normalised {mb : Nat} (hmb : 2 ≤ mb) {below : List (Raw K)} {r : Raw K} {l : Level K}
    (hg : ∀ g ∈ r.gammas, 0 ≤ g.pe ∧ 0 ≤ g.ic) (h : MadeFrom mb below r l) : Normalised l := by
  obtain ⟨_, _, _, _, h1, h2⟩ := h
  by_cases hgs : r.gammas = []
  · obtain ⟨ds, hd, hb⟩ := h2 hgs
    have hne := daughters_ne hmb hd
    have hl : ds.length ≠ 0 := by simpa using hne
    have hpos : (0 : K) < ds.length := by exact_mod_cast Nat.pos_of_ne_zero hl
    refine ⟨by simpa [hb] using hne, ?_, ?_⟩
    · rw [hb]
      intro b hb'
      obtain ⟨d, _, rfl⟩ := List.mem_map.mp hb'
      exact ⟨by positivity, by norm_num, by norm_num⟩
    · rw [hb, List.map_map]
      have : ((fun x : Branch K => x.branch) ∘ fun d : Nat => (⟨d, 1 / (ds.length : K), 1⟩ : Branch K))
          = Function.const Nat (1 / (ds.length : K)) := rfl
      rw [this, List.map_const]
      exact sum_shares _ hl
  · have hb := h1 hgs
    have hl : r.gammas.length ≠ 0 := by simpa using hgs
    have hpos : (0 : K) < r.gammas.length := by exact_mod_cast Nat.pos_of_ne_zero hl
    have hS : 0 ≤ (r.gammas.map Gam.pe).sum := List.sum_nonneg (by
      intro x hx
      obtain ⟨g, hg', rfl⟩ := List.mem_map.mp hx
      exact (hg g hg').1)
    refine ⟨by simpa [hb, listed] using hgs, ?_, ?_⟩
    · rw [hb]
      intro b hb'
      obtain ⟨g, hg', rfl⟩ := List.mem_map.mp hb'
      obtain ⟨g1, g2⟩ := hg g hg'
      by_cases h0 : (r.gammas.map Gam.pe).sum = 0
      · rw [if_pos h0]; exact ⟨by positivity, by norm_num, by norm_num⟩
      · rw [if_neg h0]
        refine ⟨div_nonneg g1 hS, by positivity, ?_⟩
        show 1 / (1 + g.ic) ≤ 1
        rw [div_le_one (by linarith)]
        linarith
    · rw [hb]
      unfold listed
      simp only [List.map_map]
      by_cases h0 : (r.gammas.map Gam.pe).sum = 0
      · simp only [if_pos h0]
        have : ((fun x : Branch K => x.branch) ∘
            fun g : Gam K => (⟨g.nf, 1 / (r.gammas.length : K), 1⟩ : Branch K))
            = Function.const _ (1 / (r.gammas.length : K)) := rfl
        rw [this, List.map_const]
        exact sum_shares _ hl
      · simp only [if_neg h0]
        have : ((fun x : Branch K => x.branch) ∘
            fun g : Gam K => (⟨g.nf, g.pe / (r.gammas.map Gam.pe).sum, 1 / (1 + g.ic)⟩ : Branch K))
            = fun g => g.pe / (r.gammas.map Gam.pe).sum := rfl
        rw [this]
        have hs : ∀ c : K, (r.gammas.map fun g => g.pe / c).sum = (r.gammas.map Gam.pe).sum / c := by
          intro c
          induction r.gammas with
          | nil => simp
          | cons a t ih => simp [ih, add_div]
        rw [hs]
        exact div_self h0

/-- **C28.** Reading a level file in which every nucleus has fewer than `ml` levels and with at most `mn`
nuclei never goes wrong, whatever the records contain.  Every nucleus of the file is stored under its
ZAID with exactly the levels its records describe: energies, spins, parities and half-lives unchanged,
listed intensities divided by their sum (equal shares if the sum is zero), and for levels without listed
transitions equal shares to the prescribed daughters. -/
theorem C28_read (mb ml mn : Nat) (hmb : 2 ≤ mb) (file : List (Int × List (Raw K)))
    (hn : file.length ≤ mn) (hl : ∀ e ∈ file, e.2.length < ml) :
    ∃ db, readData mb ml mn file = .ok db ∧ db.zaid.length = mn ∧ db.levels.length = mn ∧
      (∀ (j : Nat) (e : Int × List (Raw K)), file[j]? = some e →
        db.zaid[j]? = some e.1 ∧ ∃ ls, db.levels[j]? = some ls ∧ NucleusFrom mb e.2 ls) ∧
      ∀ j, file.length ≤ j → j < mn → db.zaid[j]? = some 0 := by
  obtain ⟨db, h1, h2, h3, h4, h5⟩ := readFile_spec mb ml hmb file [] ⟨List.replicate mn 0, List.replicate mn []⟩
    (by simp) (by simpa using hn) hl (by simp)
  refine ⟨db, h1, by simpa using h2, by simpa using h3, by simpa using h4, ?_⟩
  intro j hj hjm
  rw [h5 j (by simpa using hj)]
  simp [hjm]

/-- **C28.** In every level stored from a file with non-negative intensities and conversion coefficients
the branching ratios are non-negative and add up to one, there is at least one branch, and each photon
fraction lies in `(0,1]`. -/
theorem C28_normalised (mb ml mn : Nat) (hmb : 2 ≤ mb) (file : List (Int × List (Raw K)))
    (hn : file.length ≤ mn) (hl : ∀ e ∈ file, e.2.length < ml) (hr : ∀ e ∈ file, NonnegRecords e.2)
    (db : DB K) (h : readData mb ml mn file = .ok db) (j : Nat) (hj : j < file.length)
    (ls : List (Level K)) (hls : db.levels[j]? = some ls) : ∀ l ∈ ls, Normalised l := by
  obtain ⟨db', h1, -, -, h4, -⟩ := C28_read mb ml mn hmb file hn hl
  rw [h] at h1
  cases h1
  obtain ⟨-, ls', h5, h6, h7⟩ := h4 j _ (List.getElem?_eq_getElem hj)
  rw [hls] at h5
  cases h5
  intro l hmem
  obtain ⟨i, hi, rfl⟩ := List.getElem_of_mem hmem
  have hi' : i < file[j].2.length := by omega
  refine madeFrom_normalised hmb ?_ (h7 i _ _ (List.getElem?_eq_getElem hi') (List.getElem?_eq_getElem hi))
  exact hr _ (List.getElem_mem hj) _ (List.getElem_mem hi')

/-- Non-vacuity of C28: a nucleus with three levels, the third with two listed transitions of
intensities 3 and 1 (the second half converted), the second without any. -/
def demoFile : List (Int × List (Raw ℚ)) :=
  [(50132, [⟨0, 0, 1, 0, []⟩, ⟨1, 4, 1, 0, []⟩, ⟨2, 8, 1, 0, [⟨1, 3, 0⟩, ⟨0, 1, 1⟩]⟩])]

example : (match readData 61 200 5 demoFile with
    | .ok db => decide (db.zaid = [50132, 0, 0, 0, 0] ∧ db.levels[0]? = some
        [⟨0, 0, 1, 0, [⟨0, 1, 1⟩]⟩, ⟨1, 4, 1, 0, [⟨0, 1, 1⟩]⟩,
          ⟨2, 8, 1, 0, [⟨1, 3 / 4, 1⟩, ⟨0, 1 / 4, 1 / 2⟩]⟩])
    | _ => false) = true := by decide +kernel

example : ∀ e ∈ demoFile, NonnegRecords e.2 := by
  intro e he
  simp only [demoFile, List.mem_singleton] at he
  subst he
  intro r hr g hg
  simp only [List.mem_cons, List.not_mem_nil, or_false] at hr
  rcases hr with rfl | rfl | rfl <;> simp at hg
  rcases hg with rfl | rfl <;> norm_num

/-- **C28.** A file with too many levels for some nucleus stops the program; a file with more nuclei than
the tables hold writes past their end.  (`pre` are the nuclei before the first offending one.) -/
theorem C28_limits (mb ml mn : Nat) (hmb : 2 ≤ mb) (pre rest : List (Int × List (Raw K)))
    (z : Int) (rs : List (Raw K)) (hpre : ∀ e ∈ pre, e.2.length < ml) :
    (pre.length ≤ mn → ml ≤ rs.length → readData mb ml mn (pre ++ (z, rs) :: rest) = .exit) ∧
    (pre.length = mn → rs.length < ml → readData mb ml mn (pre ++ (z, rs) :: rest) = .ub) := by
  have app : ∀ (a b : List (Int × List (Raw K))) (c : Nat) (db : DB K),
      readFile mb ml (a ++ b) c db = (readFile mb ml a c db).bind fun db' => readFile mb ml b (c + a.length) db' := by
    intro a
    induction a with
    | nil => intro b c db; rfl
    | cons x a ih =>
      intro b c db
      obtain ⟨y, ys⟩ := x
      simp only [List.cons_append, readFile]
      by_cases hm : ml ≤ ys.length
      · simp [if_pos hm, Res.bind]
      · simp only [if_neg hm]
        cases writeAt db.zaid (c : Int) y with
        | ok zs =>
          simp only [Res.bind]
          cases readNucleus mb ys with
          | ok ls =>
            simp only []
            cases writeAt db.levels (c : Int) ls with
            | ok lv =>
              simp only []
              rw [ih]
              simp only [Res.bind, List.length_cons]
              rw [show c + 1 + a.length = c + (a.length + 1) by omega]
            | _ => rfl
          | _ => rfl
        | _ => rfl
  constructor
  · intro h1 h2
    obtain ⟨db, hd, -⟩ := C28_read mb ml mn hmb pre h1 hpre
    unfold readData at hd ⊢
    rw [app, hd]
    simp only [Res.bind, readFile]
    rw [if_pos h2]
  · intro h1 h2
    obtain ⟨db, hd, hz, -⟩ := C28_read mb ml mn hmb pre h1.le hpre
    unfold readData at hd ⊢
    rw [app, hd]
    simp only [Res.bind, readFile]
    rw [if_neg (by omega), Nat.zero_add]
    have : writeAt db.zaid (pre.length : Int) z = .ub := by simp [writeAt, hz, h1]
    rw [this]

example : (match readData 61 200 1 (demoFile ++ demoFile) with | .ub => true | _ => false) = true := by
  decide +kernel
example : (match readData 61 3 5 demoFile with | .exit => true | _ => false) = true := by decide +kernel

/-- The transitions listed for an excited level lead to lower levels. -/
def DownwardRecords (rs : List (Raw K)) : Prop :=
  ∀ (i : Nat) (r : Raw K), i ≠ 0 → rs[i]? = some r → ∀ g ∈ r.gammas, g.nf < i

/-- **C29.** Every excited level stored from the file decays, to levels strictly below it: the condition
`Decays` on which termination of the Monte Carlo cascade (C18) rests holds for every nucleus, including
those with levels without any listed transition. -/
theorem C29_way_down (mb ml mn : Nat) (hmb : 2 ≤ mb) (file : List (Int × List (Raw K)))
    (hn : file.length ≤ mn) (hl : ∀ e ∈ file, e.2.length < ml) (hr : ∀ e ∈ file, NonnegRecords e.2)
    (hdown : ∀ e ∈ file, DownwardRecords e.2)
    (db : DB K) (h : readData mb ml mn file = .ok db) (j : Nat) (hj : j < file.length)
    (ls : List (Level K)) (hls : db.levels[j]? = some ls) : MC.Decays ls := by
  have hnorm := C28_normalised mb ml mn hmb file hn hl hr db h j hj ls hls
  obtain ⟨db', h1, -, -, h4, -⟩ := C28_read mb ml mn hmb file hn hl
  rw [h] at h1
  cases h1
  obtain ⟨-, ls', h5, h6, h7⟩ := h4 j _ (List.getElem?_eq_getElem hj)
  rw [hls] at h5
  cases h5
  intro i l hi hli
  refine ⟨((hnorm l (List.mem_of_getElem? hli)).2.2).ge, ?_⟩
  have hil : i < ls.length := by
    by_contra hc
    rw [List.getElem?_eq_none (by omega)] at hli; cases hli
  have hi' : i < file[j].2.length := by omega
  have hm := h7 i _ _ (List.getElem?_eq_getElem hi') hli
  obtain ⟨_, _, _, _, g1, g2⟩ := hm
  intro b hb
  by_cases hgs : (file[j].2[i]).gammas = []
  · obtain ⟨ds, hd, hbs⟩ := g2 hgs
    rw [hbs] at hb
    obtain ⟨d, hd', rfl⟩ := List.mem_map.mp hb
    rcases daughters_lt hd d hd' with h0 | h0
    · show d < i
      omega
    · simp only [List.length_take] at h0
      show d < i
      omega
  · rw [g1 hgs] at hb
    obtain ⟨g, hg, rfl⟩ := List.mem_map.mp hb
    have := hdown _ (List.getElem_mem hj) i _ hi (List.getElem?_eq_getElem hi') g hg
    split <;> exact this

example : ∀ e ∈ demoFile, DownwardRecords e.2 := by
  intro e he
  simp only [demoFile, List.mem_singleton] at he
  subst he
  intro i r hi hr g hg
  match i, hi with
  | 1, _ => simp at hr; subst hr; simp at hg
  | 2, _ =>
    simp at hr; subst hr
    simp at hg
    rcases hg with rfl | rfl <;> simp
  | i + 3, _ => simp at hr

/-- A level of spin 0 above two levels of spin 0 has no partner and is sent to the ground state; a level
with dipole partners shares among them; otherwise the nearest spin is taken. -/
example : (match readNucleus 61 ([⟨0, 0, 1, 0, []⟩, ⟨1, 0, 1, 0, []⟩, ⟨2, 0, 1, 0, []⟩,
      ⟨3, 2, -1, 0, []⟩, ⟨4, 10, 1, 0, []⟩] : List (Raw ℚ)) with
    | .ok ls => decide (ls.map (·.branches) = [[⟨0, 1, 1⟩], [⟨0, 1, 1⟩], [⟨0, 1, 1⟩],
        [⟨0, 1 / 3, 1⟩, ⟨1, 1 / 3, 1⟩, ⟨2, 1 / 3, 1⟩], [⟨3, 1, 1⟩]])
    | _ => false) = true := by decide +kernel

/-! ### Unknown spins and parities -/

/-- Cumulative spin weight of the first `n` spins. -/
def cumulative (w : Nat → K) (n : Nat) : K := ((List.range n).map w).sum

/-- What the repair of one level may do; `g` is the doubled spin of level 0 that sets integer or
half-integer spins, `draws` the random numbers available. -/
def Repaired (maxJ : Nat) (w : Int → Nat → K) (g : Int) (draws : List K) (l l' : Level K) : Prop :=
  l'.energy = l.energy ∧ l'.halflife = l.halflife ∧ l'.branches = l.branches ∧
  (0 ≤ l.spin2 → l'.spin2 = l.spin2) ∧
  (l.spin2 < 0 → ∃ r ∈ draws,
    (∃ j, j < maxJ ∧ l'.spin2 = 2 * (j : Int) + half g ∧ r < cumulative (w (half g)) (j + 1) ∧
      ∀ m, 0 < m → m ≤ j → cumulative (w (half g)) m ≤ r) ∨
    (l'.spin2 = l.spin2 ∧ ∀ m, 0 < m → m ≤ maxJ → cumulative (w (half g)) m ≤ r)) ∧
  (l.parity ≠ 0 → l'.parity = l.parity) ∧
  (l.parity = 0 → l'.parity = 1 ∨ l'.parity = -1)

/-- Random numbers used for one level. -/
def drawsFor (l : Level K) : Nat := (if l.spin2 < 0 then 1 else 0) + (if l.parity = 0 then 1 else 0)

theorem fixSpin_ok {maxJ : Nat} {w : Int → Nat → K} {g s2 t : Int} {s s' : List K}
    (h : fixSpin maxJ w g s2 s = .ok (t, s')) :
    (0 ≤ s2 → t = s2 ∧ s' = s) ∧ (s2 < 0 → ∃ r, s = r :: s' ∧
      ((∃ j, j < maxJ ∧ t = 2 * (j : Int) + half g ∧ r < cumulative (w (half g)) (j + 1) ∧
        ∀ m, 0 < m → m ≤ j → cumulative (w (half g)) m ≤ r) ∨
      (t = s2 ∧ ∀ m, 0 < m → m ≤ maxJ → cumulative (w (half g)) m ≤ r))) := by
  unfold fixSpin at h
  by_cases hs : s2 < 0
  · rw [if_pos hs] at h
    refine ⟨fun h0 => absurd h0 (by omega), fun _ => ?_⟩
    obtain ⟨r, s1, h1, h2⟩ := Rnd.bind_ok.mp h
    rw [Rnd.draw_ok] at h1
    obtain ⟨h3, h4⟩ := Rnd.pure_ok.mp h2
    subst h4
    refine ⟨r, h1, ?_⟩
    have hsc := spinScan_spec (w (half g)) r maxJ 0 0
    cases hc : spinScan (w (half g)) r maxJ 0 0 with
    | some j =>
      rw [hc] at hsc h3
      obtain ⟨_, a2, a3, a4⟩ := hsc
      left
      refine ⟨j, by omega, h3.symm, ?_, ?_⟩
      · simpa [cumulative] using a3
      · intro m hm hj
        have := a4 m hj hm
        simpa [cumulative] using this
    | none =>
      rw [hc] at hsc h3
      right
      refine ⟨h3.symm, ?_⟩
      intro m hm hj
      have := hsc m hm (by omega)
      simpa [cumulative] using this
  · rw [if_neg hs] at h
    obtain ⟨h3, h4⟩ := Rnd.pure_ok.mp h
    exact ⟨fun _ => ⟨h3.symm, h4.symm⟩, fun h0 => absurd h0 hs⟩

theorem fixParity_ok {p t : Int} {s s' : List K} (h : fixParity p s = .ok (t, s')) :
    (p ≠ 0 → t = p ∧ s' = s) ∧ (p = 0 → (t = 1 ∨ t = -1) ∧ ∃ r, s = r :: s') := by
  unfold fixParity at h
  by_cases hp : p = 0
  · rw [if_pos hp] at h
    refine ⟨fun h0 => absurd hp h0, fun _ => ?_⟩
    obtain ⟨r, s1, h1, h2⟩ := Rnd.bind_ok.mp h
    rw [Rnd.draw_ok] at h1
    obtain ⟨h3, h4⟩ := Rnd.pure_ok.mp h2
    subst h4
    refine ⟨?_, r, h1⟩
    rw [← h3]
    split
    · exact .inl rfl
    · exact .inr rfl
  · rw [if_neg hp] at h
    obtain ⟨h3, h4⟩ := Rnd.pure_ok.mp h
    exact ⟨fun _ => ⟨h3.symm, h4.symm⟩, fun h0 => absurd h0 hp⟩

theorem fixLevel_ok {maxJ : Nat} {w : Int → Nat → K} {g : Int} {l l' : Level K} {s s' : List K}
    (h : fixLevel maxJ w g l s = .ok (l', s')) :
    ∃ used, s = used ++ s' ∧ used.length = drawsFor l ∧ Repaired maxJ w g used l l' := by
  unfold fixLevel at h
  obtain ⟨t, s1, h1, h2⟩ := Rnd.bind_ok.mp h
  obtain ⟨p, s2, h3, h4⟩ := Rnd.bind_ok.mp h2
  obtain ⟨h5, h6⟩ := Rnd.pure_ok.mp h4
  subst h5 h6
  have a := fixSpin_ok h1
  have b := fixParity_ok h3
  have part1 : ∃ u, s = u ++ s1 ∧ u.length = (if l.spin2 < 0 then 1 else 0) ∧
      (l.spin2 < 0 → ∃ r ∈ u, (∃ j, j < maxJ ∧ t = 2 * (j : Int) + half g ∧
        r < cumulative (w (half g)) (j + 1) ∧ ∀ m, 0 < m → m ≤ j → cumulative (w (half g)) m ≤ r) ∨
      (t = l.spin2 ∧ ∀ m, 0 < m → m ≤ maxJ → cumulative (w (half g)) m ≤ r)) := by
    by_cases hs : l.spin2 < 0
    · obtain ⟨r, hr, hc⟩ := a.2 hs
      exact ⟨[r], by simpa using hr, by simp [hs], fun _ => ⟨r, by simp, hc⟩⟩
    · exact ⟨[], by simpa using (a.1 (by omega)).2.symm, by simp [hs], fun h0 => absurd h0 hs⟩
  have part2 : ∃ u, s1 = u ++ s2 ∧ u.length = (if l.parity = 0 then 1 else 0) := by
    by_cases hp : l.parity = 0
    · obtain ⟨_, r, hr⟩ := b.2 hp
      exact ⟨[r], by simpa using hr, by simp [hp]⟩
    · exact ⟨[], by simpa using (b.1 hp).2.symm, by simp [hp]⟩
  obtain ⟨u, hu, hul, hur⟩ := part1
  obtain ⟨v, hv, hvl⟩ := part2
  refine ⟨u ++ v, by rw [hu, hv, List.append_assoc], by simp [drawsFor, hul, hvl], rfl, rfl, rfl,
    fun h0 => (a.1 h0).1, ?_, fun h0 => (b.1 h0).1, fun h0 => (b.2 h0).1⟩
  intro hs
  obtain ⟨r, hr, hc⟩ := hur hs
  exact ⟨r, List.mem_append_left _ hr, hc⟩

theorem Repaired.mono {maxJ : Nat} {w : Int → Nat → K} {g : Int} {u v : List K} {l l' : Level K}
    (huv : ∀ r ∈ u, r ∈ v) (h : Repaired maxJ w g u l l') : Repaired maxJ w g v l l' := by
  obtain ⟨a, b, c, d, e, f⟩ := h
  refine ⟨a, b, c, d, ?_, f⟩
  intro hs
  obtain ⟨r, hr, hc⟩ := e hs
  exact ⟨r, huv r hr, hc⟩

theorem fixRest_ok {maxJ : Nat} {w : Int → Nat → K} {g : Int} {ls : List (Level K)} :
    ∀ {ls' : List (Level K)} {s s' : List K}, fixRest maxJ w g ls s = .ok (ls', s') →
    ∃ used, s = used ++ s' ∧ used.length = (ls.map drawsFor).sum ∧
      List.Forall₂ (Repaired maxJ w g used) ls ls' := by
  induction ls with
  | nil =>
    intro ls' s s' h
    obtain ⟨h1, h2⟩ := Rnd.pure_ok.mp h
    subst h1 h2
    exact ⟨[], rfl, rfl, .nil⟩
  | cons l ls ih =>
    intro ls' s s' h
    unfold fixRest at h
    obtain ⟨l1, s1, h1, h2⟩ := Rnd.bind_ok.mp h
    obtain ⟨ls1, s2, h3, h4⟩ := Rnd.bind_ok.mp h2
    obtain ⟨h5, h6⟩ := Rnd.pure_ok.mp h4
    subst h5 h6
    obtain ⟨u, hu, hul, hur⟩ := fixLevel_ok h1
    obtain ⟨v, hv, hvl, hvr⟩ := ih h3
    refine ⟨u ++ v, by rw [hu, hv, List.append_assoc], by simp [hul, hvl], ?_⟩
    refine .cons (hur.mono fun r hr => List.mem_append_left _ hr) ?_
    exact hvr.imp fun _ _ h => h.mono fun r hr => List.mem_append_right _ hr

/-- **C29.** Filling in unknown spins and parities: known spins and parities, energies, half-lives and
branches are never altered; unknown parities become `+1` or `-1`; an unknown spin becomes the spin `j`
(integer or half-integer as level 0) at which the cumulative weight passes the random number, and stays
unknown only if that number is not below the total weight.  Exactly one random number is used per unknown
quantity. -/
theorem C29_fill (maxJ : Nat) (w : Int → Nat → K) (ls ls' : List (Level K)) (s s' : List K)
    (h : fixLevels maxJ w ls s = .ok (ls', s')) :
    ∃ used, s = used ++ s' ∧ used.length = (ls.map drawsFor).sum ∧
      ls'.length = ls.length ∧
      ∀ (i : Nat) (l l' : Level K), ls[i]? = some l → ls'[i]? = some l' →
        Repaired maxJ w (if i = 0 then l.spin2 else (ls'[0]?.elim 0 (·.spin2))) used l l' := by
  unfold fixLevels at h
  by_cases hx : ∃ l ∈ ls, l.spin2 < 0 ∨ l.parity = 0
  · rw [if_pos hx] at h
    cases ls with
    | nil =>
      obtain ⟨h1, h2⟩ := Rnd.pure_ok.mp h
      subst h1 h2
      exact ⟨[], rfl, rfl, rfl, by simp⟩
    | cons l0 ls =>
      unfold fixAll at h
      obtain ⟨l1, s1, h1, h2⟩ := Rnd.bind_ok.mp h
      obtain ⟨ls1, s2, h3, h4⟩ := Rnd.bind_ok.mp h2
      obtain ⟨h5, h6⟩ := Rnd.pure_ok.mp h4
      subst h5 h6
      obtain ⟨u, hu, hul, hur⟩ := fixLevel_ok h1
      obtain ⟨v, hv, hvl, hvr⟩ := fixRest_ok h3
      refine ⟨u ++ v, by rw [hu, hv, List.append_assoc], by simp [hul, hvl],
        by simp [hvr.length_eq], ?_⟩
      intro i l l' hl hl'
      cases i with
      | zero =>
        simp at hl hl'
        subst hl hl'
        simp only [if_true]
        exact hur.mono fun r hr => List.mem_append_left _ hr
      | succ i =>
        simp only [List.getElem?_cons_succ] at hl hl'
        rw [if_neg (by omega)]
        simp only [List.getElem?_cons_zero, Option.elim_some]
        have hi : i < ls.length := by
          by_contra hc
          rw [List.getElem?_eq_none (by omega)] at hl; cases hl
        have hi' : i < ls1.length := by
          by_contra hc
          rw [List.getElem?_eq_none (by omega)] at hl'; cases hl'
        rw [List.getElem?_eq_getElem hi] at hl
        rw [List.getElem?_eq_getElem hi'] at hl'
        cases hl; cases hl'
        have := (List.forall₂_iff_get.mp hvr).2 i hi hi'
        exact this.mono fun r hr => List.mem_append_right _ hr
  · rw [if_neg hx] at h
    obtain ⟨h1, h2⟩ := Rnd.pure_ok.mp h
    subst h1 h2
    push Not at hx
    refine ⟨[], rfl, ?_, rfl, ?_⟩
    · have : ls.map drawsFor = ls.map (fun _ => 0) := by
        refine List.map_congr_left ?_
        intro l hl
        obtain ⟨a, b⟩ := hx l hl
        simp [drawsFor, b, not_lt.mpr a]
      rw [this]; simp
    · intro i l l' hl hl'
      rw [hl] at hl'
      cases hl'
      obtain ⟨a, b⟩ := hx l (List.mem_of_getElem? hl)
      exact ⟨rfl, rfl, rfl, fun _ => rfl, fun h0 => by omega, fun _ => rfl, fun h0 => absurd h0 b⟩

/-- **C29.** If every random number lies below the total spin weight, no level is left with an unknown spin
or parity. -/
theorem C29_all_known (maxJ : Nat) (hJ : 0 < maxJ) (w : Int → Nat → K) (ls ls' : List (Level K))
    (s s' : List K) (hs : ∀ r ∈ s, r < cumulative (w 0) maxJ ∧ r < cumulative (w 1) maxJ)
    (h : fixLevels maxJ w ls s = .ok (ls', s')) :
    ∀ l ∈ ls', 0 ≤ l.spin2 ∧ l.parity ≠ 0 := by
  obtain ⟨used, hu, -, hlen, hrep⟩ := C29_fill maxJ w ls ls' s s' h
  intro l' hmem
  obtain ⟨i, hi, rfl⟩ := List.getElem_of_mem hmem
  have hi' : i < ls.length := by omega
  obtain ⟨-, -, -, b1, b2, b3, b4⟩ := hrep i _ _ (List.getElem?_eq_getElem hi') (List.getElem?_eq_getElem hi)
  have hhalf : ∀ g, half g = 0 ∨ half g = 1 := by
    intro g; unfold half; split <;> simp
  constructor
  · by_cases h0 : 0 ≤ ls[i].spin2
    · rw [b1 h0]; exact h0
    · obtain ⟨r, hr, hc⟩ := b2 (by omega)
      rcases hc with ⟨j, _, hj, _⟩ | ⟨_, hall⟩
      · rw [hj]
        rcases hhalf (if i = 0 then ls[i].spin2 else (ls'[0]?.elim 0 (·.spin2))) with h1 | h1 <;> rw [h1] <;> omega
      · exfalso
        have hr' := hs r (by rw [hu]; exact List.mem_append_left _ hr)
        have := hall maxJ hJ (le_refl _)
        rcases hhalf (if i = 0 then ls[i].spin2 else (ls'[0]?.elim 0 (·.spin2))) with h1 | h1 <;> rw [h1] at this
        · exact absurd this (not_le.mpr hr'.1)
        · exact absurd this (not_le.mpr hr'.2)
  · by_cases h0 : ls[i].parity = 0
    · rcases b4 h0 with h1 | h1 <;> rw [h1] <;> decide
    · rw [b3 h0]; exact h0

/-- **C29.** The repair cannot be undefined, and with as many random numbers as unknown quantities it
completes. -/
theorem C29_fill_total (maxJ : Nat) (w : Int → Nat → K) (ls : List (Level K)) (s : List K)
    (hs : 2 * ls.length ≤ s.length) : ∃ ls' s', fixLevels maxJ w ls s = .ok (ls', s') := by
  have hsp : ∀ g t (s : List K), 1 ≤ s.length → ∃ t' s', fixSpin maxJ w g t s = .ok (t', s') ∧
      s.length ≤ s'.length + 1 := by
    intro g t s h
    unfold fixSpin
    cases s with
    | nil => simp at h
    | cons r s =>
      by_cases ht : t < 0
      · rw [if_pos ht]; exact ⟨_, s, rfl, by simp⟩
      · rw [if_neg ht]; exact ⟨_, r :: s, rfl, by simp⟩
  have hpa : ∀ p (s : List K), 1 ≤ s.length → ∃ t' s', fixParity p s = .ok (t', s') ∧
      s.length ≤ s'.length + 1 := by
    intro p s h
    unfold fixParity
    cases s with
    | nil => simp at h
    | cons r s =>
      by_cases ht : p = 0
      · rw [if_pos ht]; exact ⟨_, s, rfl, by simp⟩
      · rw [if_neg ht]; exact ⟨_, r :: s, rfl, by simp⟩
  have hlev : ∀ g l (s : List K), 2 ≤ s.length → ∃ l' s', fixLevel maxJ w g l s = .ok (l', s') ∧
      s.length ≤ s'.length + 2 := by
    intro g l s h
    obtain ⟨t, s1, h1, h2⟩ := hsp g l.spin2 s (by omega)
    obtain ⟨p, s2, h3, h4⟩ := hpa l.parity s1 (by omega)
    refine ⟨{ l with spin2 := t, parity := p }, s2, ?_, by omega⟩
    unfold fixLevel
    rw [Rnd.bind_of_ok h1, Rnd.bind_of_ok h3]; rfl
  have hrest : ∀ g (ls : List (Level K)) (s : List K), 2 * ls.length ≤ s.length →
      ∃ ls' s', fixRest maxJ w g ls s = .ok (ls', s') := by
    intro g ls
    induction ls with
    | nil => intro s _; exact ⟨[], s, rfl⟩
    | cons l ls ih =>
      intro s h
      simp only [List.length_cons] at h
      obtain ⟨l', s1, h1, h2⟩ := hlev g l s (by omega)
      obtain ⟨ls', s2, h3⟩ := ih s1 (by omega)
      refine ⟨l' :: ls', s2, ?_⟩
      unfold fixRest
      rw [Rnd.bind_of_ok h1, Rnd.bind_of_ok h3]; rfl
  unfold fixLevels
  split
  · cases ls with
    | nil => exact ⟨[], s, rfl⟩
    | cons l ls =>
      simp only [List.length_cons] at hs
      obtain ⟨l', s1, h1, h2⟩ := hlev l.spin2 l s (by omega)
      obtain ⟨ls', s2, h3⟩ := hrest l'.spin2 ls s1 (by omega)
      refine ⟨l' :: ls', s2, ?_⟩
      unfold fixAll
      simp only []
      rw [Rnd.bind_of_ok h1, Rnd.bind_of_ok h3]; rfl
  · exact ⟨ls, s, rfl⟩

/-- Non-vacuity of C29: unknown spin and parity above a spin-1/2 ground state; weights 1/4, 1/2, 1/4. -/
def demoW : Int → Nat → ℚ := fun _ j => if j = 1 then 1 / 2 else 1 / 4

def demoLevels : List (Level ℚ) := [⟨0, 1, 1, 0, []⟩, ⟨1, -2, 0, 0, [⟨0, 1, 1⟩]⟩, ⟨2, 5, 0, 0, [⟨1, 1, 1⟩]⟩]

example : fixLevels 3 demoW demoLevels [1 / 3, 3 / 5, 1 / 5] = .ok ([⟨0, 1, 1, 0, []⟩,
    ⟨1, 3, 1, 0, [⟨0, 1, 1⟩]⟩, ⟨2, 5, -1, 0, [⟨1, 1, 1⟩]⟩], []) := by decide +kernel

/-- A random number at or above the total weight leaves the spin unknown. -/
example : ∃ l ls s, fixLevels 3 demoW demoLevels [1, 3 / 5, 1 / 5] = .ok (ls, s) ∧ l ∈ ls ∧ l.spin2 < 0 :=
  ⟨⟨1, -2, 1, 0, [⟨0, 1, 1⟩]⟩, [⟨0, 1, 1, 0, []⟩, ⟨1, -2, 1, 0, [⟨0, 1, 1⟩]⟩, ⟨2, 5, -1, 0, [⟨1, 1, 1⟩]⟩], [],
    by decide +kernel⟩

/-! ### Looking up a nucleus -/

/-- **C67** (the part that holds). For a nucleus in the file the levels found are those made from its
first entry in the file. -/
theorem C67_lookup_partial (mb ml mn : Nat) (hmb : 2 ≤ mb) (file : List (Int × List (Raw K)))
    (hn : file.length ≤ mn) (hl : ∀ e ∈ file, e.2.length < ml)
    (db : DB K) (h : readData mb ml mn file = .ok db) (j : Nat) (e : Int × List (Raw K))
    (hj : file[j]? = some e) (hfirst : ∀ (k : Nat) (e' : Int × List (Raw K)), k < j → file[k]? = some e' → e'.1 ≠ e.1) :
    ∃ ls, lookup db e.1 = .ok ls ∧ NucleusFrom mb e.2 ls := by
  obtain ⟨db', h1, hz, hlv, h4, -⟩ := C28_read mb ml mn hmb file hn hl
  rw [h] at h1
  cases h1
  obtain ⟨a, ls, b, c⟩ := h4 j e hj
  have hjf : j < file.length := by
    by_contra hc
    rw [List.getElem?_eq_none (by omega)] at hj; cases hj
  refine ⟨ls, ?_, c⟩
  unfold lookup
  have : search db.zaid e.1 = .ok j := by
    rw [search_ok]
    refine ⟨a, ?_⟩
    intro k hk hke
    have hkf : k < file.length := by omega
    have := h4 k _ (List.getElem?_eq_getElem hkf)
    rw [hke] at this
    have h5 := this.1
    simp only [Option.some.injEq] at h5
    exact hfirst k _ hk (List.getElem?_eq_getElem hkf) h5.symm
  rw [this]
  simp only [Res.bind]
  have hjl : j < db.levels.length := by omega
  rw [readAt_nat _ _ hjl]
  rw [List.getElem?_eq_getElem hjl] at b
  cases b; rfl

/-- **C67, refuted.** For every nucleus that is not in the file (ZAID different from zero) the search runs
past the end of the table, whatever the file: the documented fallback to a ground state with default spin
is never reached without undefined behaviour. -/
theorem C67_absent_undefined (mb ml mn : Nat) (hmb : 2 ≤ mb) (file : List (Int × List (Raw K)))
    (hn : file.length ≤ mn) (hl : ∀ e ∈ file, e.2.length < ml)
    (db : DB K) (h : readData mb ml mn file = .ok db) (z : Int) (hz : z ≠ 0) (habs : ∀ e ∈ file, e.1 ≠ z) :
    lookup db z = .ub := by
  obtain ⟨db', h1, hzl, -, h4, h5⟩ := C28_read mb ml mn hmb file hn hl
  rw [h] at h1
  cases h1
  have : z ∉ db.zaid := by
    intro hmem
    obtain ⟨k, hk, hkz⟩ := List.getElem_of_mem hmem
    by_cases hkf : k < file.length
    · have := (h4 k _ (List.getElem?_eq_getElem hkf)).1
      rw [List.getElem?_eq_getElem hk, hkz] at this
      cases this
      exact habs _ (List.getElem_mem hkf) rfl
    · have := h5 k (by omega) (by omega)
      rw [List.getElem?_eq_getElem hk, hkz] at this
      cases this
      exact hz rfl
  unfold lookup
  rw [search_ub this]; rfl

example : (match readData 61 200 5 demoFile with
    | .ok db => (match lookup db 50131 with | .ub => true | _ => false) &&
        (match lookup db 50132 with | .ok ls => decide (ls.length = 3) | _ => false)
    | _ => false) = true := by decide +kernel

end CGMF.Props
