import Verif.Model.Screen
import Verif.Spec.Screen
import Verif.Props.EndToEnd

/-!
# C137: the summary on the screen and the table in the notebook

Readable from the statement with `Model/Screen.lean`, the models named in `Props/EndToEnd.lean`, and `Spec/Screen.lean`.
-/

namespace CGMF.Props

open CGMF CGMF.Spec CGMF.Parser CGMF.Printer CGMF.Toolkit CGMF.Text CGMF.EndToEnd

/-- A cell of the table against the number on the screen. -/
theorem agree_of_near {tol tol' q : ℚ} {xs : List ℚ} {c : List Char} (h : Near tol xs c) (ht : tol + 1 / 200 ≤ tol')
    (hq : q = xs.sum / ((max xs.length 1 : Nat) : ℚ)) : Agree tol' (fmtFixed 2 q) c := by
  have e := fixedInt_err 2 q
  have p := pyFloat_fmtFixed 2 (by omega) q
  by_cases hx : xs = []
  · left
    subst hx
    simp only [List.sum_nil, zero_div] at hq
    subst hq
    refine ⟨h.1 rfl, ?_⟩
    rw [p]
    norm_num [fixedInt, fixedUnits, roundHE]
  · right
    obtain ⟨v, h1, h2⟩ := h.2 hx
    refine ⟨_, v, p, h1, ?_⟩
    have hl : max xs.length 1 = xs.length := by
      have := List.length_pos_iff.mpr hx
      omega
    rw [hl] at hq
    rw [← hq] at h2
    rw [abs_le] at *
    norm_num at e
    constructor <;> linarith [e.1, e.2, h2.1, h2.2]

theorem mean_map (evs : List EvC) (hne : evs ≠ []) (f : Content ℚ → ℚ) (g : EvC → ℚ) (h : ∀ e, f (contentOf e) = g e) :
    Spec.mean (evs.map contentOf) f = (evs.map g).sum / ((max (evs.map g).length 1 : Nat) : ℚ) := by
  have hl : max (evs.map g).length 1 = evs.length := by
    have := List.length_pos_iff.mpr hne
    rw [List.length_map]
    omega
  unfold Spec.mean
  rw [hl, List.map_map, List.length_map]
  congr 2
  apply List.map_congr_left
  intro e _
  exact h e

theorem perParticle_map (evs : List EvC) (f : Content ℚ → List ℚ) (g : EvC → List ℚ) (h : ∀ e, f (contentOf e) = g e) :
    perParticle (evs.map contentOf) f = (evs.flatMap g).sum / ((max (evs.flatMap g).length 1 : Nat) : ℚ) := by
  unfold perParticle
  rw [List.flatMap_map]
  simp only [h]

/-- A cell of a table that shows what is to be expected. -/
theorem entry_near {l : String} {k : Nat} {tol : ℚ} {xss : List (List ℚ)} {xs : List ℚ} : ∀ {es : List (String × ℚ × List (List ℚ))}
    {t : List (String × List (List Char))}, List.Forall₂ RowNear es t → (es.find? fun e => e.1 == l) = some (l, tol, xss) →
    xss[k]? = some xs → ∃ c, entry t l k = some c ∧ Near tol xs c
  | _, _, .nil, h, _ => by simp at h
  | e :: es, r :: t, .cons h1 h2, h, hk => by
      unfold entry
      rw [List.find?_cons] at h ⊢
      rw [h1.1]
      by_cases hl : e.1 = l
      · have : (e.1 == l) = true := by simpa using hl
        rw [this] at h ⊢
        simp only [Option.some.injEq] at h
        subst h
        simp only [Option.bind_some]
        have hlen := h1.2.length_eq
        obtain ⟨hk1, hk2⟩ := List.getElem?_eq_some_iff.1 hk
        have hk3 : k < r.2.length := by simp only at hlen; omega
        refine ⟨r.2[k], List.getElem?_eq_getElem hk3, ?_⟩
        have := h1.2.get hk1 hk3
        simp only [List.get_eq_getElem] at this
        rw [hk2] at this
        exact this
      · have : (e.1 == l) = false := by simpa using hl
        rw [this] at h ⊢
        exact entry_near h2 h hk

/-- One place. -/
theorem place {S : Driver.Summary ℚ} {evs : List EvC} {t : List (String × List (List Char))} {a l : String} {i k : Nat} {tol tol' q : ℚ}
    {xss : List (List ℚ)} {xs : List ℚ} (ht : List.Forall₂ RowNear (EndToEnd.expected evs) t)
    (hs : entry (Driver.screen S) a i = some (fmtFixed 2 q)) (he : ((EndToEnd.expected evs).find? fun e => e.1 == l) = some (l, tol, xss))
    (hk : xss[k]? = some xs) (hq : q = xs.sum / ((max xs.length 1 : Nat) : ℚ)) (hl : tol + 1 / 200 ≤ tol') :
    ∃ x c, entry (Driver.screen S) a i = some x ∧ entry t l k = some c ∧ Agree tol' x c := by
  obtain ⟨c, h1, h2⟩ := entry_near ht he hk
  exact ⟨_, c, hs, h1, agree_of_near h2 hl hq⟩

/-- Average over fragments and average over events of the mean of both. -/
theorem spin_mean (evs : List EvC) (hne : evs ≠ []) : Spec.mean (evs.map contentOf) (fun e => (e.jL + e.jH) / 2)
    = (evs.flatMap fun e => [e.light.j, e.heavy.j]).sum / ((max (evs.flatMap fun e => [e.light.j, e.heavy.j]).length 1 : Nat) : ℚ) := by
  have h1 : ∀ l : List EvC, (l.flatMap fun e => [e.light.j, e.heavy.j]).length = 2 * l.length := by
    intro l; induction l with
    | nil => rfl
    | cons a l ih => simp only [List.flatMap_cons, List.length_append, ih, List.length_cons, List.length_nil]; omega
  have h2 : ∀ l : List EvC, (l.map fun e => (e.light.j + e.heavy.j) / 2).sum = (l.flatMap fun e => [e.light.j, e.heavy.j]).sum / 2 := by
    intro l; induction l with
    | nil => simp
    | cons a l ih => simp only [List.map_cons, List.sum_cons, ih, List.flatMap_cons, List.sum_append, List.sum_nil]; ring
  have hp := List.length_pos_iff.mpr hne
  rw [mean_map evs hne _ (fun e => (e.light.j + e.heavy.j) / 2) (fun _ => rfl), h2, h1, List.length_map,
    show max evs.length 1 = evs.length by omega, show max (2 * evs.length) 1 = 2 * evs.length by omega]
  push_cast
  have : (evs.length : ℚ) ≠ 0 := by exact_mod_cast hp.ne'
  field_simp

/-- Pre-fission neutrons: zero if there is none. -/
theorem pre_mean (evs : List EvC) : perParticle (evs.map contentOf) (·.preNeutrons)
    = (orZero (evs.flatMap fun e => e.pren.map (·.e))).sum / ((max (orZero (evs.flatMap fun e => e.pren.map (·.e))).length 1 : Nat) : ℚ) := by
  rw [perParticle_map evs _ (fun e => e.pren.map (·.e)) (fun _ => rfl)]
  unfold orZero
  split_ifs with h
  · rw [h]; simp
  · rfl

theorem sum_append_perm (evs : List EvC) (f g : EvC → List ℚ) :
    (evs.flatMap fun e => f e ++ g e).sum = (evs.flatMap f ++ evs.flatMap g).sum ∧
    (evs.flatMap fun e => f e ++ g e).length = (evs.flatMap f ++ evs.flatMap g).length := by
  induction evs with
  | nil => simp
  | cons a l ih =>
      simp only [List.flatMap_cons, List.sum_append, List.length_append] at *
      exact ⟨by linarith [ih.1], by omega⟩

/-- All neutrons in the laboratory. -/
theorem lab_mean (evs : List EvC) : perParticle (evs.map contentOf)
      (fun e => e.lightNeutrons.map Prod.snd ++ e.heavyNeutrons.map Prod.snd ++ e.preNeutrons)
    = ((evs.flatMap fun e => (e.light.neutrons.map Prod.snd ++ e.heavy.neutrons.map Prod.snd).map (·.e)) ++
        evs.flatMap fun e => e.pren.map (·.e)).sum
      / ((max ((evs.flatMap fun e => (e.light.neutrons.map Prod.snd ++ e.heavy.neutrons.map Prod.snd).map (·.e)) ++
        evs.flatMap fun e => e.pren.map (·.e)).length 1 : Nat) : ℚ) := by
  rw [perParticle_map evs _ (fun e => (e.light.neutrons.map Prod.snd ++ e.heavy.neutrons.map Prod.snd).map (·.e) ++ e.pren.map (·.e))
    (fun e => by simp [contentOf, Function.comp_def]), (sum_append_perm evs _ _).1, (sum_append_perm evs _ _).2]

/-- The screen and the table of the same events. -/
theorem same_numbers (evs : List EvC) (hne : evs ≠ []) (t : List (String × List (List Char)))
    (ht : List.Forall₂ RowNear (EndToEnd.expected evs) t) :
    ∀ p ∈ places, ∃ x c, entry (Driver.screen (specSummary (evs.map contentOf))) p.1.1 p.1.2 = some x ∧
      entry t p.2.1.1 p.2.1.2 = some c ∧ Agree p.2.2 x c := by
  simp only [places, List.forall_mem_cons]
  refine ⟨?_, ?_, ?_, ?_, ?_, ?_, ?_, ?_, ?_, ?_, ?_, ?_, ?_, ?_, ?_, ?_, ?_, ?_, ?_, ?_, ?_, ?_, ?_, ?_, ?_, ?_, ?_, ?_, ?_, by simp⟩
  · exact place ht rfl rfl rfl (mean_map evs hne _ _ fun e => rfl) (by norm_num)
  · exact place ht rfl rfl rfl (mean_map evs hne _ _ fun e => rfl) (by norm_num)
  · exact place ht rfl rfl rfl (mean_map evs hne _ _ fun e => rfl) (by norm_num)
  · exact place ht rfl rfl rfl (mean_map evs hne _ _ fun e => rfl) (by norm_num)
  · exact place ht rfl rfl rfl (mean_map evs hne _ _ fun e => rfl) (by norm_num)
  · exact place ht rfl rfl rfl (mean_map evs hne _ _ fun e => rfl) (by norm_num)
  · exact place ht rfl rfl rfl (mean_map evs hne _ _ fun e => rfl) (by norm_num)
  · exact place ht rfl rfl rfl (mean_map evs hne _ _ fun e => rfl) (by norm_num)
  · exact place ht rfl rfl rfl (mean_map evs hne _ _ fun e => rfl) (by norm_num)
  · exact place ht rfl rfl rfl (mean_map evs hne _ _ fun e => rfl) (by norm_num)
  · exact place ht rfl rfl rfl (mean_map evs hne _ _ fun e => rfl) (by norm_num)
  · exact place ht rfl rfl rfl (mean_map evs hne _ _ fun e => rfl) (by norm_num)
  · exact place ht rfl rfl rfl (spin_mean evs hne) (by norm_num)
  · exact place ht rfl rfl rfl (mean_map evs hne _ _ fun e => by simp [contentOf]) (by norm_num)
  · exact place ht rfl rfl rfl (mean_map evs hne _ _ fun e => by simp [contentOf]) (by norm_num)
  · exact place ht rfl rfl rfl (mean_map evs hne _ _ fun e => by simp [contentOf]) (by norm_num)
  · exact place ht rfl rfl rfl (mean_map evs hne _ _ fun e => by simp [contentOf]) (by norm_num)
  · exact place ht rfl rfl rfl (perParticle_map evs _ _ fun e => by simp [contentOf, Function.comp_def]) (by norm_num)
  · exact place ht rfl rfl rfl (perParticle_map evs _ _ fun e => by simp [contentOf, Function.comp_def]) (by norm_num)
  · exact place ht rfl rfl rfl (perParticle_map evs _ _ fun e => by simp [contentOf, Function.comp_def]) (by norm_num)
  · exact place ht rfl rfl rfl (perParticle_map evs _ _ fun e => by simp [contentOf, Function.comp_def]) (by norm_num)
  · exact place ht rfl rfl rfl (pre_mean evs) (by norm_num)
  · exact place ht rfl rfl rfl (lab_mean evs) (by norm_num)
  · exact place ht rfl rfl rfl (mean_map evs hne _ _ fun e => by simp [contentOf]) (by norm_num)
  · exact place ht rfl rfl rfl (mean_map evs hne _ _ fun e => by simp [contentOf]) (by norm_num)
  · exact place ht rfl rfl rfl (mean_map evs hne _ _ fun e => by simp [contentOf]) (by norm_num)
  · exact place ht rfl rfl rfl (perParticle_map evs _ _ fun e => by simp [contentOf, Function.comp_def]) (by norm_num)
  · exact place ht rfl rfl rfl (perParticle_map evs _ _ fun e => by simp [contentOf, Function.comp_def]) (by norm_num)
  · exact place ht rfl rfl rfl (perParticle_map evs _ _ fun e => by simp [contentOf, Function.comp_def]) (by norm_num)

/-- **C137.** For every run of the program (as in C136) rank 0 prints a summary, the joined files load, and every number on the
screen that has a place in the table of the notebook agrees with it up to the decimals printed: charges, masses, energies and
spins of the fragments, multiplicities and mean energies of neutrons and photons. A mean over no particles is zero on the
screen and `nan` in the notebook. -/
theorem C137_agree {S Ev : Type} (E : Driver.Engine S ℚ) (gen : Driver.Reaction ℚ → ℚ → S → Ev × S) (rx : Driver.Reaction ℚ)
    (timew : ℚ) (np n : Nat) (hnp : 0 < np) (start : Int) (view : Ev → PView) (sview : Ev → Driver.View ℚ) (content : Ev → EvC)
    (hv : ∀ ev, Spec.Shows (view ev) (content ev)) (hs : ∀ ev, sview ev = (contentOf (content ev)).view)
    (evs : List EvC)
    (hevs : evs = (List.range (np * n)).map fun k : Nat => content (gen rx (effectiveWindow timew) (E.seeded (start + k))).1)
    (hn : ¬ ∀ f ∈ fragments evs, ∀ g ∈ fragments evs, f.neutrons.length = g.neutrons.length)
    (hg : ¬ ∀ f ∈ fragments evs, ∀ g ∈ fragments evs, f.photons.length = g.photons.length) :
    ∃ out : Nat → List Ev, (∀ r : Nat, Driver.runRank E gen rx timew n start (r : Int) = .ok (out r)) ∧
      ∃ s H t, Driver.finalSummary ((List.range np).map fun r => (out r).map sview) n = .ok s ∧
        openHistories none (joined rx.zaid rx.einc timew view np out) = .ok H ∧ summaryTable H.frags = .ok t ∧
        ∀ p ∈ places, ∃ x c, entry (Driver.screen s) p.1.1 p.1.2 = some x ∧ entry t p.2.1.1 p.2.1.2 = some c ∧ Agree p.2.2 x c := by
  obtain ⟨out, h1, H, t, h2, -, h3, h4⟩ := C136_table E gen rx timew np n hnp start view content hv evs hevs hn hg
  have hne : evs ≠ [] := by
    rintro rfl
    exact hn (by simp [fragments])
  obtain ⟨out', g1, g2⟩ := C08_parallel_equals_serial E gen rx timew np n start
  obtain rfl : out = out' := by
    funext r
    have := g1 r
    rw [h1 r] at this
    exact Res.ok.inj this
  rw [C08_event_from_seed] at g2
  have hall := Res.ok.inj g2
  have hlen : ∀ r, (out r).length = n := by
    intro r
    have := h1 r
    rw [C08_event_from_seed] at this
    rw [← Res.ok.inj this]
    simp
  have hn0 : 0 < n := by
    rcases Nat.eq_zero_or_pos n with rfl | h
    · exact absurd (by rw [hevs]; simp) hne
    · exact h
  refine ⟨out, h1, specSummary (evs.map contentOf), H, t, ?_, h2, h3, same_numbers evs hne t h4⟩
  have key := C10_summary ((List.range np).map fun r => (out r).map fun ev => contentOf (content ev)) n
    (by simp; omega) (by simp [hlen]) hn0
  have e1 : ((List.range np).map fun r => (out r).map sview)
      = ((List.range np).map fun r => (out r).map fun ev => contentOf (content ev)).map fun r => r.map Content.view := by
    obtain rfl : sview = fun ev => (contentOf (content ev)).view := funext hs
    simp only [List.map_map, Function.comp_def]
  rw [e1, key]
  congr 2
  rw [hevs, ← List.flatMap_def]
  have : ((List.range np).flatMap fun r => (out r).map fun ev => contentOf (content ev))
      = ((List.range np).flatMap out).map fun ev => contentOf (content ev) := by rw [List.map_flatMap]
  rw [this, ← hall, List.map_map, List.map_map]
  apply List.map_congr_left
  intro k _
  simp

/-- Two ranks with two events each. -/
example : ∃ out : Nat → List Unit,
    (∀ r : Nat, Driver.runRank (⟨0, id, fun s => (0, s + 1)⟩ : Driver.Engine Int ℚ) (fun _ _ s => ((), s)) ⟨92238, 8⟩ (-1) 2 5 (r : Int)
      = .ok (out r)) ∧
    ∃ s H t, Driver.finalSummary ((List.range 2).map fun r => (out r).map fun _ => (contentOf demoContent).view) 2 = .ok s ∧
      openHistories none (joined 92238 8 (-1) (fun _ => demoView) 2 out) = .ok H ∧ summaryTable H.frags = .ok t ∧
      ∀ p ∈ places, ∃ x c, entry (Driver.screen s) p.1.1 p.1.2 = some x ∧ entry t p.2.1.1 p.2.1.2 = some c ∧ Agree p.2.2 x c :=
  C137_agree _ _ _ _ 2 2 (by decide) _ (fun _ => demoView) _ (fun _ => demoContent) (fun _ => demo_shows) (fun _ => rfl) _ rfl
    (by simp [fragments, demoContent]) (by simp [fragments, demoContent])

/-- Its neutron multiplicities on the screen (light, heavy, pre-fission, total); in the notebook they are 1.000, 0.000, 1.000, 2.000. -/
example : (Driver.finalSummary [[(contentOf demoContent).view, (contentOf demoContent).view]] 2).bind (fun s =>
    Res.ok ((List.range 4).map fun k => entry (Driver.screen s) "neutrons" k))
    = .ok (["1.00".toList, "0.00".toList, "1.00".toList, "2.00".toList].map some) := by decide +kernel

end CGMF.Props
