import Verif.Spec.EndToEnd
import Verif.Props.Summary
import Verif.Props.Cut
import Verif.Props.Driver

/-!
# C136: from the seeds of a run to the table in the notebook

Readable from the statement with `Model/Driver.lean` (the event loop), `Model/Printer.lean` (the files),
`Model/Load.lean` (loading), `Model/Summary.lean` (the table), `Spec/History.lean` (events as lists of particles) and
`Spec/EndToEnd.lean` (the table to be expected).
-/

namespace CGMF.Props

open CGMF CGMF.Spec CGMF.Parser CGMF.Printer CGMF.Toolkit CGMF.Text

/-! ## Events and pairs of fragments read back -/

/-- The two fragments read back for an event. -/
def EvReads (w : ℚ) (c : EvC) (p : PyFrag × PyFrag) : Prop :=
  ReadsFrag w c.light p.1 ∧ ReadsFrag w c.heavy p.2 ∧ ReadsPre c.pren p.2

theorem flat_of_evens_odds : ∀ fs : List PyFrag, fs.length % 2 = 0 → flat ((evens fs).zip (odds fs)) = fs
  | [], _ => rfl
  | [_], h => by simp at h
  | a :: b :: fs, h => by
      have := flat_of_evens_odds fs (by simp only [List.length_cons] at h; omega)
      simp only [evens, odds, List.zip_cons_cons]
      show a :: b :: flat _ = _
      rw [this]

theorem forall2_zip {α β γ : Type} {R : α → β → Prop} {S : α → γ → Prop} : ∀ {xs : List α} {ys : List β} {zs : List γ},
    List.Forall₂ R xs ys → List.Forall₂ S xs zs → List.Forall₂ (fun x p => R x p.1 ∧ S x p.2) xs (ys.zip zs)
  | _, _, _, .nil, .nil => .nil
  | _, _, _, .cons h1 h2, .cons h3 h4 => .cons ⟨h1, h3⟩ (forall2_zip h2 h4)

/-! ## Means of numbers that are close -/

/-- Two lists agree entry by entry up to `ε`. -/
def Close (ε : ℚ) (xs ys : List ℚ) : Prop := List.Forall₂ (fun x y => |y - x| ≤ ε) xs ys

theorem close_sum {ε : ℚ} {xs ys : List ℚ} (h : Close ε xs ys) : |ys.sum - xs.sum| ≤ ε * xs.length := by
  induction h with
  | nil => simp
  | cons h1 _ ih =>
      simp only [List.sum_cons, List.length_cons]
      push_cast
      rw [abs_le] at *
      constructor <;> linarith [h1.1, h1.2, ih.1, ih.2]

theorem near_of_close {d : Nat} {ε : ℚ} {xs ys : List ℚ} {c : List Char} (h : Close ε xs ys) (hs : Toolkit.Shows d ys c) :
    EndToEnd.Near (1 / 2 / 10 ^ d + ε) xs c := by
  have hl := h.length_eq
  have hnil : xs = [] ↔ ys = [] := by rw [← List.length_eq_zero_iff, ← List.length_eq_zero_iff, hl]
  refine ⟨fun e => hs.1 (hnil.mp e), fun hne => ?_⟩
  obtain ⟨v, h1, h2⟩ := hs.2 (fun e => hne (hnil.mpr e))
  refine ⟨v, h1, ?_⟩
  have hp : (0 : ℚ) < xs.length := by exact_mod_cast List.length_pos_iff.mpr hne
  have h3 : |ys.sum / ys.length - xs.sum / xs.length| ≤ ε := by
    rw [← hl, ← sub_div, abs_div, abs_of_pos hp, div_le_iff₀ hp]
    exact close_sum h
  calc |v - xs.sum / xs.length| = |(v - ys.sum / ys.length) + (ys.sum / ys.length - xs.sum / xs.length)| := by ring_nf
    _ ≤ _ := abs_add_le _ _
    _ ≤ _ := add_le_add h2 h3

section
variable {w : ℚ} {evs : List EvC} {ps : List (PyFrag × PyFrag)}

theorem close_map {ε : ℚ} (h : List.Forall₂ (EvReads w) evs ps) (f : EvC → ℚ) (g : PyFrag × PyFrag → ℚ)
    (hfg : ∀ c p, EvReads w c p → |g p - f c| ≤ ε) : Close ε (evs.map f) (ps.map g) := by
  unfold Close
  rw [List.forall₂_map_left_iff, List.forall₂_map_right_iff]
  exact h.imp fun _ _ => hfg _ _

theorem close_flatMap {ε : ℚ} (h : List.Forall₂ (EvReads w) evs ps) (f : EvC → List ℚ) (g : PyFrag × PyFrag → List ℚ)
    (hfg : ∀ c p, EvReads w c p → Close ε (f c) (g p)) : Close ε (evs.flatMap f) (ps.flatMap g) := by
  induction h with
  | nil => exact .nil
  | cons h1 _ ih => simp only [List.flatMap_cons]; exact List.rel_append (hfg _ _ h1) ih

/-- Columns of one number per fragment. -/
theorem close_columns {ε : ℚ} (h : List.Forall₂ (EvReads w) evs ps) (f : FragC → ℚ) (g : PyFrag → ℚ)
    (hfg : ∀ c r, ReadsFrag w c r → |g r - f c| ≤ ε) :
    Close ε (evs.flatMap fun e => [f e.light, f e.heavy]) (both g ps) ∧
      Close (ε + ε) (evs.map fun e => f e.light + f e.heavy) (sums g ps) ∧
      Close ε (evs.map fun e => f e.light) (light g ps) ∧ Close ε (evs.map fun e => f e.heavy) (heavy g ps) := by
  refine ⟨close_flatMap h _ _ fun c p hp => .cons (hfg _ _ hp.1) (.cons (hfg _ _ hp.2.1) .nil),
    close_map h _ _ fun c p hp => ?_, close_map h _ _ fun c p hp => hfg _ _ hp.1, close_map h _ _ fun c p hp => hfg _ _ hp.2.1⟩
  have h1 := hfg _ _ hp.1
  have h2 := hfg _ _ hp.2.1
  calc _ = |(g p.1 - f c.light) + (g p.2 - f c.heavy)| := by ring_nf
    _ ≤ _ := abs_add_le _ _
    _ ≤ _ := add_le_add h1 h2

theorem close_energies (f : EvC → List Particle) (g : PyFrag × PyFrag → List Vec4)
    (h : List.Forall₂ (EvReads w) evs ps) (hfg : ∀ c p, EvReads w c p → List.Forall₂ ReadsP (f c) (g p)) :
    Close (1 / 2000) (evs.flatMap fun e => (f e).map (·.e)) (energies g ps) := by
  refine close_flatMap h _ _ fun c p hp => ?_
  unfold Close
  rw [List.forall₂_map_left_iff, List.forall₂_map_right_iff]
  refine (hfg c p hp).imp fun x y hxy => ?_
  have := hxy.2.2.2.1
  norm_num at this ⊢
  exact this

theorem pre_reads {c : EvC} {p : PyFrag × PyFrag} (h : EvReads w c p) : List.Forall₂ ReadsP c.pren (preNeutrons p) := by
  obtain ⟨-, -, h1, h2, h3⟩ := h
  unfold preNeutrons
  by_cases hp : c.pren = []
  · rw [h1, hp]; simp
  · rw [if_pos (by rw [h1]; exact_mod_cast List.length_pos_iff.mpr hp)]
    exact h2 hp

theorem orZero_close {ε : ℚ} (hε : 0 ≤ ε) {xs ys : List ℚ} (h : Close ε xs ys) : Close ε (orZero xs) (orZero ys) := by
  unfold orZero
  cases h with
  | nil => exact .cons (by simpa using hε) .nil
  | cons h1 h2 => simp only [reduceCtorEq, if_false]; exact .cons h1 h2

end

/-- The rows of the table: those of the file against those of the events. -/
theorem rows_near {t : List (String × List (List Char))} :
    ∀ {es : List (String × Nat × List (List ℚ))} {rs : List (String × ℚ × List (List ℚ))},
    List.Forall₂ RowShows es t →
    List.Forall₂ (fun r e => r.1 = e.1 ∧ ∃ ε, r.2.1 = 1 / 2 / 10 ^ e.2.1 + ε ∧ List.Forall₂ (Close ε) r.2.2 e.2.2) rs es →
    List.Forall₂ EndToEnd.RowNear rs t := by
  induction t with
  | nil =>
      intro es rs h1 h2
      cases h1; cases h2; exact .nil
  | cons r t ih =>
      intro es rs h1 h2
      cases h1 with
      | cons a b =>
          cases h2 with
          | cons c d =>
              obtain ⟨e1, ε, e2, e3⟩ := c
              refine .cons ⟨a.1.trans e1.symm, ?_⟩ (ih b d)
              rw [e2]
              have key : ∀ (xs ys : List (List ℚ)) (cs : List (List Char)) (n : Nat), List.Forall₂ (Close ε) xs ys →
                  List.Forall₂ (Toolkit.Shows n) ys cs → List.Forall₂ (EndToEnd.Near (1 / 2 / 10 ^ n + ε)) xs cs := by
                intro xs
                induction xs with
                | nil => intro ys cs n h1 h2; cases h1; cases h2; exact .nil
                | cons x xs ih =>
                    intro ys cs n h1 h2
                    cases h1 with | cons p q => cases h2 with | cons u v => exact .cons (near_of_close p u) (ih _ _ _ q v)
              exact key _ _ _ _ e3 a.2

theorem expected_close {w : ℚ} {evs : List EvC} {ps : List (PyFrag × PyFrag)} (h : List.Forall₂ (EvReads w) evs ps) :
    List.Forall₂ (fun (r : String × ℚ × List (List ℚ)) (e : String × Nat × List (List ℚ)) =>
        r.1 = e.1 ∧ ∃ ε, r.2.1 = 1 / 2 / 10 ^ e.2.1 + ε ∧ List.Forall₂ (Close ε) r.2.2 e.2.2)
      (EndToEnd.expected evs) (Toolkit.expected ps) := by
  have up : ∀ {ε δ : ℚ} {xs ys : List ℚ}, ε ≤ δ → Close ε xs ys → Close δ xs ys := fun he hc => hc.imp fun _ _ hx => hx.trans he
  have cA := close_columns (ε := 0) h (fun f => (f.a : ℚ)) (fun f => (f.a : ℚ)) fun c r hr => by rw [hr.1]; simp
  have cZ := close_columns (ε := 0) h (fun f => (f.z : ℚ)) (fun f => (f.z : ℚ)) fun c r hr => by rw [hr.2.1]; simp
  have cU := close_columns (ε := 1 / 2000) h (fun f => f.xe) (fun f => f.xe) fun c r hr => by
    have := hr.2.2.1.1; norm_num at this ⊢; exact this
  have cJ := close_columns (ε := 1 / 20) h (fun f => f.j) (fun f => f.j) fun c r hr => by
    have := hr.2.2.2.1.1; norm_num at this ⊢; exact this
  have cP := close_columns (ε := 0) h (fun f => (f.p : ℚ)) (fun f => (f.p : ℚ)) fun c r hr => by rw [hr.2.2.2.2.1]; simp
  have cK := close_columns (ε := 1 / 2000) h (fun f => f.ke) (fun f => f.ke) fun c r hr => by
    have := hr.2.2.2.2.2.1.1; norm_num at this ⊢; exact this
  have cN := close_columns (ε := 0) h (fun f => (f.neutrons.length : ℚ)) (fun f => (f.nn : ℚ)) fun c r hr => by
    rw [hr.2.2.2.2.2.2.2.1]; simp
  have cG := close_columns (ε := 0) h (fun f => (f.photons.length : ℚ)) (fun f => (f.ng : ℚ)) fun c r hr => by
    rw [hr.2.2.2.2.2.2.2.2.1]; simp
  have cPre : Close 0 (evs.map fun e => (e.pren.length : ℚ)) (heavy (fun f => (f.npn : ℚ)) ps) :=
    close_map h _ _ fun c p hp => by simp only [hp.2.2.1]; simp
  have cTot : Close 0 (evs.map fun e => ((e.light.neutrons.length + e.heavy.neutrons.length + e.pren.length : Nat) : ℚ))
      (ps.map fun p => (neutrons p : ℚ)) := close_map h _ _ fun c p hp => by
    unfold neutrons
    rw [hp.1.2.2.2.2.2.2.2.1, hp.2.1.2.2.2.2.2.2.2.1, hp.2.2.1]; push_cast; simp
  have rcm : ∀ {c r}, ReadsFrag w c r → List.Forall₂ ReadsP (c.neutrons.map Prod.fst) r.cm := fun hr => hr.2.2.2.2.2.2.2.2.2.2.2.1
  have rlab : ∀ {c r}, ReadsFrag w c r → List.Forall₂ ReadsP (c.neutrons.map Prod.snd) r.lab := fun hr => hr.2.2.2.2.2.2.2.2.2.2.2.2.1
  have rph : ∀ {c r}, ReadsFrag w c r → List.Forall₂ ReadsP (c.photons.map Prod.fst) r.phot := fun hr => hr.2.2.2.2.2.2.2.2.2.2.2.2.2.1
  unfold EndToEnd.expected Toolkit.expected
  refine .cons ⟨rfl, 0, by norm_num, .cons cA.1 (.cons cA.2.2.1 (.cons cA.2.2.2 .nil))⟩ ?_
  refine .cons ⟨rfl, 0, by norm_num, .cons cZ.1 (.cons cZ.2.2.1 (.cons cZ.2.2.2 .nil))⟩ ?_
  refine .cons ⟨rfl, 1 / 1000, by norm_num, .cons (up (by norm_num) cU.2.1) (.cons (up (by norm_num) cU.2.2.1)
    (.cons (up (by norm_num) cU.2.2.2) .nil))⟩ ?_
  refine .cons ⟨rfl, 1 / 1000, by norm_num, .cons (up (by norm_num) cK.2.1) (.cons (up (by norm_num) cK.2.2.1)
    (.cons (up (by norm_num) cK.2.2.2) .nil))⟩ ?_
  refine .cons ⟨rfl, 1 / 20, by norm_num, .cons cJ.1 (.cons cJ.2.2.1 (.cons cJ.2.2.2 .nil))⟩ ?_
  refine .cons ⟨rfl, 0, by norm_num, .cons cP.1 (.cons cP.2.2.1 (.cons cP.2.2.2 .nil))⟩ ?_
  refine .cons ⟨rfl, 0, by norm_num, .cons (up (by norm_num) cN.2.1) (.cons cN.2.2.1 (.cons cN.2.2.2 (.cons cPre (.cons cTot .nil))))⟩ ?_
  refine .cons ⟨rfl, 1 / 2000, by norm_num, .cons (close_energies _ _ h fun c p hp => List.rel_append (rcm hp.1) (rcm hp.2.1))
    (.cons (close_energies _ _ h fun c p hp => rcm hp.1) (.cons (close_energies _ _ h fun c p hp => rcm hp.2.1) .nil))⟩ ?_
  have cl := close_energies (fun e => e.light.neutrons.map Prod.snd ++ e.heavy.neutrons.map Prod.snd)
    (fun p => p.1.lab ++ p.2.lab) h fun c p hp => List.rel_append (rlab hp.1) (rlab hp.2.1)
  have cp := close_energies (·.pren) preNeutrons h fun c p hp => pre_reads hp
  refine .cons ⟨rfl, 1 / 2000, by norm_num, .cons cl (.cons (close_energies _ _ h fun c p hp => rlab hp.1)
    (.cons (close_energies _ _ h fun c p hp => rlab hp.2.1) (.cons (orZero_close (by norm_num) cp)
    (.cons (List.rel_append cl cp) .nil))))⟩ ?_
  refine .cons ⟨rfl, 0, by norm_num, .cons (up (by norm_num) cG.2.1) (.cons cG.2.2.1 (.cons cG.2.2.2 .nil))⟩ ?_
  exact .cons ⟨rfl, 1 / 2000, by norm_num, .cons (close_energies _ _ h fun c p hp => List.rel_append (rph hp.1) (rph hp.2.1))
    (.cons (close_energies _ _ h fun c p hp => rph hp.1) (.cons (close_energies _ _ h fun c p hp => rph hp.2.1) .nil))⟩ .nil

/-- The files of all ranks, joined in the order of the ranks. -/
def joined {Ev : Type} (zaid : Int) (einc w : ℚ) (view : Ev → PView) (np : Nat) (out : Nat → List Ev) : List Char :=
  (List.range np).flatMap fun r => rankFile r zaid einc w ((out r).map view)

theorem joined_eq {Ev : Type} (zaid : Int) (einc w : ℚ) (view : Ev → PView) (np : Nat) (hnp : 0 < np) (out : Nat → List Ev) :
    joined zaid einc w view np out = rankFile 0 zaid einc w (((List.range np).flatMap out).map view) := by
  unfold joined
  obtain ⟨m, rfl⟩ : ∃ m, np = m + 1 := ⟨np - 1, by omega⟩
  rw [List.range_succ_eq_map, List.flatMap_cons, List.flatMap_cons, List.map_append, List.flatMap_map, List.flatMap_map]
  have : ∀ l : List Nat, (l.flatMap fun a => rankFile a.succ zaid einc w ((out a.succ).map view))
      = ((l.flatMap fun a => out a.succ).map view).flatMap (printEvent w) := by
    intro l
    induction l with
    | nil => rfl
    | cons a l ih => simp only [List.flatMap_cons, List.map_append, List.flatMap_append, ih]; simp [rankFile]
  rw [this]
  simp [rankFile]

/-- The fragments of events. -/
def fragments (evs : List EvC) : List FragC := evs.flatMap fun e => [e.light, e.heavy]

/-- **C136.** For every run of the program, on any number of ranks, with any first seed, any random engine and any event
generator whose getters show the events generated: the files of the ranks, joined in order, are one history file with all
events, one for each of the seeds `start, ..., start + np*n - 1`, in this order; if not all fragments emitted the same
number of neutrons or the same number of photons (C64), the toolkit loads it, and every number of its summary table is the
average over the events of the run of what row and column name, up to the decimals of the file and of the table. The
number of ranks and the way the events were divided do not matter. -/
theorem C136_table {S Ev : Type} (E : Driver.Engine S ℚ) (gen : Driver.Reaction ℚ → ℚ → S → Ev × S) (rx : Driver.Reaction ℚ)
    (timew : ℚ) (np n : Nat) (hnp : 0 < np) (start : Int) (view : Ev → PView) (content : Ev → EvC)
    (hv : ∀ ev, Spec.Shows (view ev) (content ev))
    (evs : List EvC)
    (hevs : evs = (List.range (np * n)).map fun k : Nat => content (gen rx (effectiveWindow timew) (E.seeded (start + k))).1)
    (hn : ¬ ∀ f ∈ fragments evs, ∀ g ∈ fragments evs, f.neutrons.length = g.neutrons.length)
    (hg : ¬ ∀ f ∈ fragments evs, ∀ g ∈ fragments evs, f.photons.length = g.photons.length) :
    ∃ out : Nat → List Ev, (∀ r : Nat, Driver.runRank E gen rx timew n start (r : Int) = .ok (out r)) ∧
      ∃ H t, openHistories none (joined rx.zaid rx.einc timew view np out) = .ok H ∧ H.numberEvents = np * n ∧
        summaryTable H.frags = .ok t ∧ List.Forall₂ EndToEnd.RowNear (EndToEnd.expected evs) t := by
  obtain ⟨out, h1, h2⟩ := C08_parallel_equals_serial E gen rx timew np n start
  refine ⟨out, h1, ?_⟩
  rw [C08_event_from_seed] at h2
  have hall := Res.ok.inj h2
  rw [joined_eq _ _ _ _ _ hnp, ← hall]
  set L := (List.range (np * n)).map (fun i : Nat =>
    (gen rx (effectiveWindow timew) (E.seeded (start + 0 * ((np * n : Nat) : Int) + i))).1) with hL
  have hE : evs = L.map content := by
    rw [hevs, hL, List.map_map]
    apply List.map_congr_left
    intro k _
    simp
  have hlen : L.length = np * n := by rw [hL]; simp
  clear_value L
  clear hL hall h2 hevs
  subst hE
  have hsh : List.Forall₂ Spec.Shows (L.map view) (L.map content) := by
    rw [List.forall₂_map_left_iff, List.forall₂_map_right_iff, List.forall₂_same]
    exact fun ev _ => hv ev
  have hfr : ∀ F : FragC → Nat, ∀ G : PFrag → Nat, (∀ f c, FragShows f c → G f = F c) →
      (∀ f ∈ (L.map view).flatMap (fun v => [v.light, v.heavy]), ∀ g ∈ (L.map view).flatMap (fun v => [v.light, v.heavy]), G f = G g) →
      ∀ f ∈ fragments (L.map content), ∀ g ∈ fragments (L.map content), F f = F g := by
    intro F G hFG hall f hf g hg
    have key : ∀ f ∈ fragments (L.map content), ∃ f' ∈ (L.map view).flatMap (fun v => [v.light, v.heavy]), G f' = F f := by
      intro f hf
      obtain ⟨c, hc, hf⟩ := List.mem_flatMap.mp hf
      obtain ⟨ev, hev, rfl⟩ := List.mem_map.mp hc
      simp only [List.mem_cons, List.not_mem_nil, or_false] at hf
      rcases hf with rfl | rfl
      · exact ⟨(view ev).light, List.mem_flatMap.mpr ⟨view ev, List.mem_map_of_mem hev, by simp⟩, hFG _ _ (hv ev).1⟩
      · exact ⟨(view ev).heavy, List.mem_flatMap.mpr ⟨view ev, List.mem_map_of_mem hev, by simp⟩, hFG _ _ (hv ev).2.1⟩
    obtain ⟨f', m1, e1⟩ := key f hf
    obtain ⟨g', m2, e2⟩ := key g hg
    rw [← e1, ← e2]
    exact hall f' m1 g' m2
  have hload : ∃ r, loadHistories none (rankFile 0 rx.zaid rx.einc timew (L.map view)) = .ok r := by
    rw [C64_loadable_iff]
    refine ⟨?_, fun h => hn (hfr (fun c => c.neutrons.length) (fun f => f.nu) (fun f c hs => hs.2.2.2.2.2.2.2.2.2.1) h),
      fun h => hg (hfr (fun c => c.photons.length) (fun f => f.nug) (fun f c hs => hs.2.2.2.2.2.2.2.2.2.2) h)⟩
    intro h0
    have : L = [] := by simpa using h0
    subst this
    exact hn (by simp [fragments])
  obtain ⟨H, o1, o2, _, _⟩ := C119_complete _ _ _ _ hload
  obtain ⟨e', t', fs, r1, _, _, r4, r5, r6⟩ := C12_history_roundtrip none rx.zaid rx.einc timew (L.map view) (L.map content) hsh
  have hfs : H.frags = fs := by
    have := (openHistories_ok o1).1
    rw [r1] at this
    have := congrArg Prod.snd (Res.ok.inj this)
    exact this.symm
  have hps : List.Forall₂ (EvReads timew) (L.map content) ((evens fs).zip (odds fs)) :=
    (forall2_zip r5 r6).imp fun c p hp => ⟨hp.1.1, hp.2.1, hp.2.2⟩
  have hflat : flat ((evens fs).zip (odds fs)) = fs := flat_of_evens_odds fs (by rw [r4]; omega)
  obtain ⟨t, t1, t2⟩ := C134_table ((evens fs).zip (odds fs))
  rw [hflat] at t1
  refine ⟨H, t, o1, by rw [o2, List.length_map, hlen], by rw [hfs]; exact t1, rows_near t2 (expected_close hps)⟩

/-- Two ranks with two events each of the kind of `demoView`. -/
example : ∃ out : Nat → List Unit,
    (∀ r : Nat, Driver.runRank (⟨0, id, fun s => (0, s + 1)⟩ : Driver.Engine Int ℚ) (fun _ _ s => ((), s)) ⟨92238, 8⟩ (-1) 2 5 (r : Int)
      = .ok (out r)) ∧
    ∃ H t, openHistories none (joined 92238 8 (-1) (fun _ => demoView) 2 out) = .ok H ∧ H.numberEvents = 4 ∧
      summaryTable H.frags = .ok t ∧ List.Forall₂ EndToEnd.RowNear (EndToEnd.expected (List.replicate 4 demoContent)) t :=
  C136_table _ _ _ _ 2 2 (by decide) _ (fun _ => demoView) (fun _ => demoContent) (fun _ => demo_shows) _ rfl
    (by simp [fragments, demoContent]) (by simp [fragments, demoContent])

/-- Some of its numbers. -/
example : ((openHistories none (joined 92238 8 (-1) (fun _ : Unit => demoView) 2 (fun _ => [(), ()]))).bind fun H =>
    (summaryTable H.frags).bind fun t => Res.ok (t.filter fun r => r.1 == "nu" || r.1 == "photon energy, lab"))
    = .ok [("nu", ["1.000".toList, "1.000".toList, "0.000".toList, "1.000".toList, "2.000".toList]),
      ("photon energy, lab", [" 0.33".toList, "  nan".toList, " 0.33".toList])] := by decide +kernel

end CGMF.Props
