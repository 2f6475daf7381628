import Verif.Proofs.Memory

/-! # C129: events return the memory they take -/

namespace CGMF.Props
open CGMF CGMF.Mem

/-- **C129**, the program: for every number of events whose data are there, whatever they draw, the program makes no invalid use of memory
and ends with every block returned. -/
theorem C129_program (nuclei : Nat) (cs : List Choice) (hcs : ∀ c ∈ cs, Fine c) :
    ∃ h, program nuclei cs ⟨0, []⟩ = .ok ((), h) ∧ h.live = [] := by
  obtain ⟨_, h, qs, e, rfl, hp⟩ := does_program (nuclei := nuclei) cs hcs ⟨0, []⟩ [] (.refl _)
  exact ⟨h, e, List.perm_nil.1 (by simpa using hp)⟩

/-- **C129**, a caller of the library: after the last event is deleted the memory in use is the same whatever the number of events, one or
more (tables and scratch arrays), and the clean-up returns that too. -/
theorem C129_bounded (nuclei : Nat) (cs : List Choice) (hcs : ∀ c ∈ cs, Fine c) (hne : cs ≠ []) :
    ∃ g h, run nuclei cs Glob.init ⟨0, []⟩ = .ok (g, h) ∧ h.live.length = nuclei + 2506 ∧
      ∃ g' h', cleanup g h = .ok (g', h') ∧ h'.live = [] := by
  obtain ⟨g, h, qs, e, ⟨ts, ss, hg, hf, hq⟩, hp⟩ := does_run (nuclei := nuclei) cs hcs ⟨0, []⟩ [] (.refl _)
  have hp' : h.live.Perm (ts ++ ss) := by
    have := hp.trans (hq.append_right []); simpa using this
  obtain ⟨h1, h2⟩ := hf hne
  have ht : ts.length = 4 + nuclei := by
    rcases hg.2.2.1 with ⟨h, _⟩ | ⟨_, h⟩
    · rw [h1] at h; cases h
    · exact h
  have hs : ss.length = 2502 := by
    rcases hg.2.2.2 with ⟨h, _⟩ | ⟨_, h⟩
    · rw [h2] at h; cases h
    · exact h
  obtain ⟨g', h', q, e', rfl, hp''⟩ := does_cleanup hg (.refl _) h [] (by simpa using hp')
  refine ⟨g, h, e, ?_, g', h', e', List.perm_nil.1 (by simpa using hp'')⟩
  rw [hp'.length_eq, List.length_append, ht, hs]; omega

/-- **C129**, in the course of a run: after any number of events, with the last one still there, no use of memory was invalid and the number
of blocks is within a bound that does not depend on the number of events. -/
theorem C129_peak (nuclei : Nat) (cs : List Choice) (hcs : ∀ c ∈ cs, Fine c) :
    ∃ e g h, events nuclei cs none Glob.init ⟨0, []⟩ = .ok ((e, g), h) ∧
      h.live.length ≤ (nuclei + 2506) + 50075 + (1 + 9 + 5 + 5) := by
  obtain ⟨⟨e, g⟩, h, qs, he, ⟨ts, ss, os, sh, hg, hev, -, -, hq⟩, hp⟩ :=
    does_events (nuclei := nuclei) cs hcs (held_init nuclei) (e := none) ⟨rfl, rfl⟩ (.refl _) ⟨0, []⟩ [] (.refl _)
  refine ⟨e, g, h, he, ?_⟩
  have hl : h.live.length = os.length + sh.length + (ts.length + ss.length) := by
    rw [hp.length_eq, List.append_nil, hq.length_eq]; simp; omega
  have ht : ts.length ≤ 4 + nuclei := by
    rcases hg.2.2.1 with ⟨_, rfl⟩ | ⟨_, h⟩
    · simp
    · exact h.le
  have hs : ss.length ≤ 2502 := by
    rcases hg.2.2.2 with ⟨_, rfl⟩ | ⟨_, h⟩
    · simp
    · exact h.le
  have ho : os.length ≤ 20 ∧ sh.length ≤ 50075 := by
    cases e with
    | none => obtain ⟨rfl, rfl⟩ := hev; simp
    | some e =>
      obtain ⟨⟨_, ns, ps, qs, _, _, _, _, _, _, _, _, _, _, _, _, _, rfl, h1, h2, h3⟩, _, h4⟩ := hev
      refine ⟨?_, h4.le⟩
      simp only [List.length_cons, List.length_append]
      omega
  omega

/-- **C129**, data not there: an energy out of range, or a target not listed from which neutrons can be emitted, stop the process. -/
theorem C129_stops (nuclei : Nat) (c : Choice) (g : Glob) (h : Life.Heap) (hs : c.sf = false)
    (hc : (∃ b ∈ c.file, b.target = true) ∧ c.inRange = false ∨ (∀ b ∈ c.file, b.target = false) ∧ 0 < c.nemit) :
    newEvent nuclei c g h = .exit :=
  newEvent_ff nuclei c g h (fun _ => .exit) (fun _ => rfl) fun h' => newFF_stops hs h' hc

/-- **C129**, data not there and no neutron can be emitted: the probabilities are read through a pointer never written. -/
theorem C129_absent (nuclei : Nat) (c : Choice) (g : Glob) (h : Life.Heap) (hs : c.sf = false) (hl : ∀ b ∈ c.file, b.target = false)
    (hn : c.nemit = 0) : newEvent nuclei c g h = .ub :=
  newEvent_ff nuclei c g h (fun _ => .ub) (fun _ => rfl) fun h' => newFF_absent hs h' hl hn

/-- **C129** is refuted for fission yields: each call keeps more than fifty thousand blocks for ever. -/
theorem C129_yields_refuted (nuclei : Nat) (cs : List Choice) (hcs : ∀ c ∈ cs, Fine c) :
    ∃ g h, yieldsCalls nuclei cs Glob.init ⟨0, []⟩ = .ok (g, h) ∧ h.live.length = (cs.map (kept nuclei)).sum ∧
      cs.length * 52586 ≤ h.live.length := by
  obtain ⟨g, h, qs, e, hq, hp⟩ := does_yieldsCalls (nuclei := nuclei) cs hcs Glob.init [] ⟨0, []⟩ [] (.refl _)
  have hl : h.live.length = (cs.map (kept nuclei)).sum := by
    rw [hp.length_eq]; simpa using hq
  refine ⟨g, h, e, hl, ?_⟩
  rw [hl]
  clear hq hp e hl hcs
  have hk : ∀ c, 52586 ≤ kept nuclei c := fun c => by unfold kept; omega
  calc cs.length * 52586 = (cs.map fun _ => 52586).sum := by simp
    _ ≤ _ := List.sum_le_sum fun c _ => hk c

/-- **C129**, and an object of yields cannot be deleted: its multiplicities were never written. -/
theorem C129_yields_delete (nuclei : Nat) (c : Choice) (hc : Fine c) (g : Glob) (h : Life.Heap) :
    ∃ e g' h', newYields nuclei c g h = .ok ((e, g'), h') ∧ deleteEvent e g' h' = .ub := by
  obtain ⟨⟨e, g'⟩, h', qs, he, ⟨hpre, -⟩, -⟩ := does_newYields (nuclei := nuclei) hc g [] h h.live (.refl _)
  refine ⟨e, g', h', he, ?_⟩
  unfold deleteEvent
  have hpre' : e.pre = none := hpre
  rw [hpre']
  rfl

/-! ## Non-trivial cases -/

/-- A neutron-induced event with one pre-equilibrium neutron, two tries and cascades of two steps and one. -/
def mem129 : Choice :=
  { sf := false, file := [⟨false, 3⟩, ⟨true, 40⟩, ⟨true, 2⟩], inRange := true, nemit := 2, npfn := 1, preeq := true,
    evap := [true, false, true], exc := [true], tries := 2, light := [⟨[true, false], [true]⟩, ⟨[], []⟩], heavy := [⟨[true], [false, true]⟩],
    nu := 3, nug := 0 }

/-- A spontaneous fission. -/
def mem129sf : Choice := { mem129 with sf := true, npfn := 0, preeq := false, nug := 7 }

theorem mem129_fine : ∀ c ∈ [mem129, mem129sf, mem129], Fine c := by
  intro c hc
  simp only [List.mem_cons, List.not_mem_nil, or_false] at hc
  rcases hc with rfl | rfl | rfl
  · exact Or.inr ⟨rfl, rfl, ⟨true, 40⟩, by decide, rfl⟩
  · exact Or.inl ⟨rfl, rfl⟩
  · exact Or.inr ⟨rfl, rfl, ⟨true, 40⟩, by decide, rfl⟩

example : ∃ h, program 2 [mem129, mem129sf, mem129] ⟨0, []⟩ = .ok ((), h) ∧ h.live = [] := C129_program 2 _ mem129_fine

example : ∃ g h, run 2 [mem129, mem129sf, mem129] Glob.init ⟨0, []⟩ = .ok (g, h) ∧ h.live.length = 2508 := by
  obtain ⟨g, h, e, hl, -⟩ := C129_bounded 2 _ mem129_fine (by simp)
  exact ⟨g, h, e, hl⟩

example (h : Life.Heap) : newEvent 2 { mem129 with inRange := false } Glob.init h = .exit :=
  C129_stops 2 _ _ h rfl (Or.inl ⟨⟨⟨true, 40⟩, by decide, rfl⟩, rfl⟩)

example (h : Life.Heap) : newEvent 2 { mem129 with file := [⟨false, 3⟩], nemit := 0 } Glob.init h = .ub :=
  C129_absent 2 _ _ h rfl (by decide) rfl

example : ∃ g h, yieldsCalls 2 [mem129, mem129sf] Glob.init ⟨0, []⟩ = .ok (g, h) ∧ h.live.length = 105179 := by
  obtain ⟨g, h, e, hl, -⟩ := C129_yields_refuted 2 [mem129, mem129sf] fun c hc => mem129_fine c (by
    simp only [List.mem_cons, List.not_mem_nil, or_false] at hc ⊢; tauto)
  exact ⟨g, h, e, hl.trans (by decide)⟩

example : ∃ e g h, events 2 [mem129, mem129sf, mem129] none Glob.init ⟨0, []⟩ = .ok ((e, g), h) ∧ h.live.length ≤ 52603 :=
  C129_peak 2 _ mem129_fine

end CGMF.Props
