import Verif.Proofs.Lifecycle

/-!
# C59, C60: memory safety of the C and C++ interfaces over all call histories
-/

set_option linter.unusedSimpArgs false

namespace CGMF.Props

open CGMF CGMF.Life

/-- Every getter call comes after at least one event generation. -/
def GettersAfterGen : Bool → List Call → Prop
  | _, [] => True
  | _, .gen _ :: cs => GettersAfterGen true cs
  | b, .get :: cs => b = true ∧ GettersAfterGen b cs
  | b, _ :: cs => GettersAfterGen b cs

/-- Invariant of the C interface before `cgmf_clean`. -/
structure CInv (c : C) (seen : Bool) : Prop where
  ev : c.fev.isSome = seen
  ncl : (c.cgm.isSome ∨ c.fev.isSome) → c.g.ncl ≠ none
  first : c.g.first = false → c.g.tables ≠ none
  own : Own c.g.heap (((c.fev.map Obj.blocks).getD []) ++ (((c.cgm.map Obj.blocks).getD []) ++
    (c.g.ncl.toList ++ c.g.tables.toList)))

/-- Construction after removing the old event: the common part of `gen` and `cgm`. -/
theorem replace_event {g : G} {old : Option Obj} {o : List Nat} (has : Bool)
    (hncl : old.isSome → g.ncl ≠ none) (hfirst : g.first = false → g.tables ≠ none)
    (w : Own g.heap (((old.map Obj.blocks).getD []) ++ (o ++ (g.ncl.toList ++ g.tables.toList)))) :
    ∃ g1 e g' n t, deleteIf g old = .ok g1 ∧ construct g1 has = .ok (e, g') ∧ g'.ncl = some n ∧
      g'.tables = some t ∧ g'.first = false ∧ Own g'.heap (e.blocks ++ (n :: t :: o)) := by
  cases old with
  | none =>
    simp only [Option.map_none, Option.getD_none, List.nil_append] at w
    have w' : Own g.heap (g.tables.toList ++ o) := by
      refine (w.perm (o' := (g.tables.toList ++ o) ++ g.ncl.toList) ?_).sub
        (List.sublist_append_left _ _)
      · rw [List.append_assoc]
        have h1 : (o ++ (g.ncl.toList ++ g.tables.toList)).Perm
            ((g.ncl.toList ++ g.tables.toList) ++ o) := List.perm_append_comm
        refine h1.trans ?_
        rw [List.append_assoc]
        have h2 := List.perm_append_comm (l₁ := g.ncl.toList) (l₂ := g.tables.toList ++ o)
        simpa using h2
    obtain ⟨e, g', n, t, h1, h2, h3, h4, h5⟩ := construct_own has w' hfirst
    exact ⟨g, e, g', n, t, rfl, h1, h2, h3, h4, h5⟩
  | some e0 =>
    obtain ⟨n0, hn0⟩ := Option.ne_none_iff_exists'.mp (hncl rfl)
    simp only [Option.map_some, Option.getD_some, hn0, Option.toList_some] at w
    have w1 : Own g.heap (e0.blocks ++ n0 :: (g.tables.toList ++ o)) := by
      refine w.perm (List.Perm.append_left _ ?_)
      have := List.perm_append_comm (l₁ := o) (l₂ := [n0] ++ g.tables.toList)
      simpa using this
    obtain ⟨h', hd, w2, -, -⟩ := destroy_own hn0 w1
    obtain ⟨e, g', n, t, h1, h2, h3, h4, h5⟩ :=
      construct_own (g := { g with heap := h' }) has w2 hfirst
    exact ⟨_, e, g', n, t, hd, h1, h2, h3, h4, h5⟩

/-- The call generates a fission event. -/
def isGen : Call → Bool
  | .gen _ => true
  | _ => false

theorem call_inv {c : C} {b : Bool} (hc : CInv c b) (x : Call) (hx : x ≠ .clean)
    (hg : x = .get → b = true) :
    ∃ c', call c x = .ok c' ∧ CInv c' (b || isGen x) := by
  cases x with
  | gen has =>
    obtain ⟨g1, e, g', n, t, h0, h1, h2, h3, h4, h5⟩ := replace_event (g := c.g) (old := c.fev)
      (o := (c.cgm.map Obj.blocks).getD []) has (fun h => hc.ncl (Or.inr h)) hc.first hc.own
    refine ⟨{ c with g := g', fev := some e }, by simp [call, h0, h1], ⟨by simp [isGen], by simp [h2], by simp [h3], ?_⟩⟩
    refine h5.perm ?_
    simp only [Option.map_some, Option.getD_some, h2, h3, Option.toList_some]
    refine List.Perm.append_left _ ?_
    exact List.perm_append_comm (l₁ := [n, t])
  | cgm has =>
    have own' : Own c.g.heap (((c.cgm.map Obj.blocks).getD []) ++
        (((c.fev.map Obj.blocks).getD []) ++ (c.g.ncl.toList ++ c.g.tables.toList))) := by
      refine hc.own.perm ?_
      have := (List.perm_append_comm (l₁ := (c.fev.map Obj.blocks).getD [])
        (l₂ := (c.cgm.map Obj.blocks).getD [])).append_right (c.g.ncl.toList ++ c.g.tables.toList)
      simpa using this
    obtain ⟨g1, e, g', n, t, h0, h1, h2, h3, h4, h5⟩ := replace_event (g := c.g) (old := c.cgm)
      (o := (c.fev.map Obj.blocks).getD []) has (fun h => hc.ncl (Or.inl h)) hc.first own'
    refine ⟨{ c with g := g', cgm := some e }, by simp [call, h0, h1], ⟨by simp [isGen, hc.ev], by simp [h2], by simp [h3], ?_⟩⟩
    refine h5.perm ?_
    simp only [Option.map_some, Option.getD_some, h2, h3, Option.toList_some]
    have h6 : (e.blocks ++ n :: t :: (c.fev.map Obj.blocks).getD []).Perm
        ((c.fev.map Obj.blocks).getD [] ++ (e.blocks ++ [n, t])) := by
      have := List.perm_append_comm (l₁ := e.blocks ++ [n, t]) (l₂ := (c.fev.map Obj.blocks).getD [])
      simpa using this
    simpa using h6
  | yields =>
    have w1 := hc.own.alloc.alloc.alloc
    have hd := w1.deref (p := c.g.heap.alloc.2.alloc.1) (by simp)
    refine ⟨_, by simp only [call, constructYields, allocShared, initTables]; rw [hd]; rfl,
      ⟨by simp [isGen, hc.ev], by simp, by simp, ?_⟩⟩
    simp only [Option.toList_some]
    generalize c.g.heap.alloc.2.alloc.2.alloc.1 = n at w1 ⊢
    generalize c.g.heap.alloc.2.alloc.1 = t at w1 ⊢
    generalize c.g.heap.alloc.1 = y at w1 ⊢
    generalize c.g.heap.alloc.2.alloc.2.alloc.2 = hp at w1 ⊢
    generalize (c.fev.map Obj.blocks).getD [] = a at w1 ⊢
    generalize (c.cgm.map Obj.blocks).getD [] = b' at w1 ⊢
    generalize c.g.ncl.toList ++ c.g.tables.toList = r at w1
    have p1 : (n :: t :: y :: (a ++ (b' ++ r))).Perm ((a ++ (b' ++ ([n] ++ [t]))) ++ (y :: r)) := by
      have := List.perm_append_comm (l₁ := [n, t]) (l₂ := a ++ b')
      have h3 : (n :: t :: y :: (a ++ (b' ++ r))).Perm ([n, t] ++ ((a ++ b') ++ (y :: r))) := by
        have h4 := (List.perm_middle (l₁ := a ++ b') (a := y) (l₂ := r)).symm
        simpa using ((h4.cons t).cons n)
      refine h3.trans ?_
      have := this.append_right (y :: r)
      simpa using this
    exact (w1.perm p1).sub (List.sublist_append_left _ _)
  | get =>
    have hb := hg rfl
    have hev := hc.ev
    rw [hb] at hev
    obtain ⟨e, he⟩ := Option.isSome_iff_exists.mp hev
    refine ⟨c, ?_, by simpa [isGen, hb] using hc⟩
    have hm : e.obj ∈ ((c.fev.map Obj.blocks).getD []) ++ (((c.cgm.map Obj.blocks).getD []) ++
        (c.g.ncl.toList ++ c.g.tables.toList)) := by simp [he, Obj.blocks]
    simp only [call, he, Option.map_some]
    rw [hc.own.deref hm]; rfl
  | clean => exact absurd rfl hx

theorem run_inv (cs : List Call) : ∀ {c : C} {b : Bool}, CInv c b → Call.clean ∉ cs →
    GettersAfterGen b cs → ∃ c', runC cs c = .ok c' ∧
      CInv c' (b || cs.any isGen) := by
  induction cs with
  | nil => intro c b h _ _; exact ⟨c, rfl, by simpa using h⟩
  | cons x xs ih =>
    intro c b h hcl hg
    simp only [List.mem_cons, not_or] at hcl
    have hx : x = .get → b = true := by rintro rfl; exact hg.1
    obtain ⟨c', e1, i1⟩ := call_inv h x (fun h => hcl.1 h.symm) hx
    have hg' : GettersAfterGen (b || isGen x) xs := by
      cases x with
      | gen _ => simpa [isGen, GettersAfterGen] using hg
      | get => have := hg.2; simpa [isGen] using this
      | _ => simpa [isGen, GettersAfterGen] using hg
    obtain ⟨c'', e2, i2⟩ := ih i1 hcl.2 hg'
    refine ⟨c'', by simp [runC, e1, e2], ?_⟩
    simpa [Bool.or_assoc] using i2

theorem runC_append (a b : List Call) : ∀ s : C, runC (a ++ b) s = (runC a s >>= runC b) := by
  induction a with
  | nil => intro s; rfl
  | cons x a ih =>
    intro s
    simp only [List.cons_append, runC]
    cases call s x <;> simp [ih]

theorem init_inv : CInv C.init false :=
  ⟨rfl, by simp [C.init], by simp [C.init, G.init], by simpa [C.init, G.init] using own_init⟩

/-- **C59.**  Any history of C calls in which every getter follows a generation and `cgmf_clean` is
not called, or is called once at the very end, never touches freed or null memory: for any length,
any mixture of fission, single-nucleus and yields calls. -/
theorem C59_safe_histories (cs : List Call) (hcl : Call.clean ∉ cs) (hg : GettersAfterGen false cs) :
    (∃ c, runC cs C.init = .ok c) ∧ (∃ c, runC (cs ++ [.clean]) C.init = .ok c) := by
  obtain ⟨c, e, i⟩ := run_inv cs init_inv hcl hg
  refine ⟨⟨c, e⟩, ?_⟩
  rw [runC_append, e]
  simp only [Res.bind_ok, runC, call]
  cases hf : c.fev with
  | none => exact ⟨_, rfl⟩
  | some f =>
    obtain ⟨n, hn⟩ := Option.ne_none_iff_exists'.mp (i.ncl (Or.inr (by simp [hf])))
    have w := i.own
    simp only [hf, Option.map_some, Option.getD_some, hn, Option.toList_some] at w
    have w1 : Own c.g.heap (f.blocks ++ n :: (c.g.tables.toList ++ (c.cgm.map Obj.blocks).getD [])) := by
      refine w.perm (List.Perm.append_left _ ?_)
      have := List.perm_append_comm (l₁ := (c.cgm.map Obj.blocks).getD []) (l₂ := [n] ++ c.g.tables.toList)
      simpa using this
    obtain ⟨h', hd, -, -, -⟩ := destroy_own hn w1
    exact ⟨_, by simp [deleteIf, hd]; rfl⟩

/-- C59: after `cgmf_clean` the interface is unusable.  Whatever correct history came before, as soon
as it generated an event, calling a getter, generating again or cleaning again is undefined behaviour,
because the pointer is not reset. -/
theorem C59_after_clean_undefined (cs : List Call) (hcl : Call.clean ∉ cs)
    (hg : GettersAfterGen false cs) (b : Bool) (hb : Call.gen b ∈ cs) (x : Call)
    (hx : x = .get ∨ x = .clean ∨ ∃ b', x = .gen b') :
    runC (cs ++ [.clean, x]) C.init = .ub := by
  obtain ⟨c, e, i⟩ := run_inv cs init_inv hcl hg
  have hev : c.fev.isSome = true := by
    rw [i.ev]
    simp only [Bool.false_or, List.any_eq_true]
    exact ⟨_, hb, rfl⟩
  obtain ⟨f, hf⟩ := Option.isSome_iff_exists.mp hev
  obtain ⟨n, hn⟩ := Option.ne_none_iff_exists'.mp (i.ncl (Or.inr hev))
  have w := i.own
  simp only [hf, Option.map_some, Option.getD_some, hn, Option.toList_some] at w
  have w1 : Own c.g.heap (f.blocks ++ n :: (c.g.tables.toList ++ (c.cgm.map Obj.blocks).getD [])) := by
    refine w.perm (List.Perm.append_left _ ?_)
    have := List.perm_append_comm (l₁ := (c.cgm.map Obj.blocks).getD []) (l₂ := [n] ++ c.g.tables.toList)
    simpa using this
  obtain ⟨h', hd, -, hnn, hno⟩ := destroy_own hn w1
  have hdead : h'.deref (some f.obj) = .ub := by simp [Heap.deref, hno]
  rw [runC_append, e]
  simp only [Res.bind_ok, runC, call, hf, deleteIf, hd, Res.pure_eq]
  rcases hx with rfl | rfl | ⟨b', rfl⟩
  · simp [call, hdead]
  · simp [call, deleteIf, destroy, hdead]
  · simp [call, deleteIf, destroy, hdead]

/-- C59: a getter before any generation dereferences a null pointer. -/
theorem C59_getter_first_undefined (cs : List Call) (h : ∀ x ∈ cs, x = .yields ∨ ∃ b, x = .cgm b) :
    runC (cs ++ [.get]) C.init = .ub := by
  have hcl : Call.clean ∉ cs := by
    intro hc; rcases h _ hc with h | ⟨b, h⟩ <;> cases h
  have hg : ∀ l : List Call, (∀ x ∈ l, x = .yields ∨ ∃ b, x = .cgm b) → GettersAfterGen false l := by
    intro l
    induction l with
    | nil => intro _; trivial
    | cons x l ih =>
      intro hl
      rcases hl x (by simp) with rfl | ⟨b, rfl⟩
      · exact ih (fun y hy => hl y (by simp [hy]))
      · exact ih (fun y hy => hl y (by simp [hy]))
  obtain ⟨c, e, i⟩ := run_inv cs init_inv hcl (hg cs h)
  have hev : c.fev = none := by
    have := i.ev
    have hany : cs.any isGen = false := by
      rw [List.any_eq_false]
      intro x hx
      rcases h x hx with rfl | ⟨b, rfl⟩ <;> simp [isGen]
    rw [hany] at this
    simpa using this
  rw [runC_append, e]
  simp [runC, call, hev, Heap.deref]

example : ∃ c, runC [.cgm true, .gen true, .get, .yields, .gen false, .get, .cgm true, .clean]
    C.init = .ok c :=
  (C59_safe_histories [.cgm true, .gen true, .get, .yields, .gen false, .get, .cgm true]
    (by decide) (by simp [GettersAfterGen])).2

example : runC [.gen true, .get, .clean, .gen true] C.init = .ub := by decide

/-! ## C++ interface -/

/-- Every `new` uses a fresh variable, every `delete` names an event not yet deleted, and the shared
tables are not freed. -/
def WellFormed : List Nat → List Op → Prop
  | _, [] => True
  | ks, .new k _ :: ops => k ∉ ks ∧ WellFormed (k :: ks) ops
  | ks, .del k :: ops => k ∈ ks ∧ WellFormed (ks.filter (· ≠ k)) ops
  | _, .cleanup :: _ => False

/-- The operation deletes an event. -/
def isDel : Op → Bool
  | .del _ => true
  | _ => false

/-- `NoDoubleDelete d ops`: no delete directly follows another one (`d`: the previous operation
was a delete). -/
def NoDoubleDelete : Bool → List Op → Prop
  | _, [] => True
  | d, x :: xs => ¬ (d = true ∧ isDel x = true) ∧ NoDoubleDelete (isDel x) xs

/-- Invariant; `d` says that the shared arrays have been freed since the last construction. -/
structure PInv (p : P) (d : Bool) : Prop where
  keys : (p.vars.map Prod.fst).Nodup
  first : p.g.first = false → p.g.tables ≠ none
  ncl : p.vars ≠ [] → p.g.ncl ≠ none
  dead : d = true → ∀ n, p.g.ncl = some n → n ∉ p.g.heap.live
  own : Own p.g.heap (p.vars.flatMap (fun v => v.2.blocks) ++
    ((if d then [] else p.g.ncl.toList) ++ p.g.tables.toList))

theorem lookup_perm : ∀ (l : List (Nat × Obj)) (k : Nat) (e : Obj), (l.map Prod.fst).Nodup →
    l.lookup k = some e → l.Perm ((k, e) :: l.filter (·.1 ≠ k)) := by
  intro l
  induction l with
  | nil => intro k e _ h; simp at h
  | cons v l ih =>
    rintro k e hn h
    obtain ⟨a, x⟩ := v
    simp only [List.map_cons, List.nodup_cons] at hn
    by_cases ha : k = a
    · subst ha
      simp at h
      subst h
      have hf : l.filter (·.1 ≠ k) = l := by
        rw [List.filter_eq_self]
        intro y hy
        have : y.1 ≠ k := by rintro rfl; exact hn.1 (List.mem_map_of_mem hy)
        simpa using this
      simp only [ne_eq, not_true_eq_false, decide_false, Bool.false_eq_true, not_false_eq_true,
        List.filter_cons_of_neg]
      rw [hf]
    · have hb : (k == a) = false := by simpa using ha
      rw [List.lookup_cons, hb] at h
      have := ih k e hn.2 h
      rw [List.filter_cons_of_pos (by simpa using fun h => ha h.symm)]
      exact (this.cons _).trans (List.Perm.swap _ _ _)

theorem pinv_init : PInv P.init false :=
  ⟨by simp [P.init], by simp [P.init, G.init], by simp [P.init], by simp, by
    simpa [P.init, G.init] using own_init⟩

theorem pnew {p : P} {d : Bool} (h : PInv p d) (k : Nat) (has : Bool)
    (hk : k ∉ p.vars.map Prod.fst) :
    ∃ p', step p (.new k has) = .ok p' ∧ PInv p' false ∧
      p'.vars.map Prod.fst = k :: p.vars.map Prod.fst ∧ p'.g.tables ≠ none := by
  have w' : Own p.g.heap (p.g.tables.toList ++ p.vars.flatMap (fun v => v.2.blocks)) := by
    refine (h.own.perm (o' := _) ?_).sub (List.sublist_append_left _ (if d then [] else p.g.ncl.toList))
    have h1 := List.perm_append_comm (l₁ := (if d then [] else p.g.ncl.toList)) (l₂ := p.g.tables.toList)
    have h2 := h1.append_left (p.vars.flatMap (fun v => v.2.blocks))
    refine h2.trans ?_
    rw [← List.append_assoc]
    exact List.perm_append_comm.append_right _
  obtain ⟨e, g', n, t, h1, h2, h3, h4, h5⟩ := construct_own has w' h.first
  refine ⟨⟨g', (k, e) :: p.vars⟩, by simp [step, h1], ⟨?_, by simp [h3], by simp [h2], by simp, ?_⟩,
    by simp, by simp [h3]⟩
  · simp only [List.map_cons, List.nodup_cons]
    exact ⟨hk, h.keys⟩
  · refine h5.perm ?_
    simp only [List.flatMap_cons, h2, h3, Option.toList_some, List.append_assoc]
    refine List.Perm.append_left _ ?_
    exact List.perm_append_comm (l₁ := [n, t])

theorem lookup_of_mem : ∀ (l : List (Nat × Obj)) (k : Nat), k ∈ l.map Prod.fst →
    ∃ e, l.lookup k = some e := by
  intro l
  induction l with
  | nil => intro k h; simp at h
  | cons v l ih =>
    intro k h
    by_cases ha : k = v.1
    · subst ha; exact ⟨v.2, by rw [List.lookup_cons, beq_self_eq_true]⟩
    · have hb : (k == v.1) = false := by simpa using ha
      simp only [List.map_cons, List.mem_cons, ha, false_or] at h
      obtain ⟨e, he⟩ := ih k h
      exact ⟨e, by rw [List.lookup_cons, hb]; exact he⟩

theorem keys_filter (l : List (Nat × Obj)) (k : Nat) :
    (l.filter (·.1 ≠ k)).map Prod.fst = (l.map Prod.fst).filter (· ≠ k) := by
  rw [List.filter_map]; rfl

theorem pdel {p : P} (h : PInv p false) (k : Nat) (hk : k ∈ p.vars.map Prod.fst) :
    ∃ p', step p (.del k) = .ok p' ∧ PInv p' true ∧
      p'.vars.map Prod.fst = (p.vars.map Prod.fst).filter (· ≠ k) ∧ p'.g.tables = p.g.tables := by
  obtain ⟨e, he⟩ := lookup_of_mem _ _ hk
  have hp := lookup_perm _ _ _ h.keys he
  have hne : p.vars ≠ [] := by rintro h0; simp [h0] at hk
  obtain ⟨n, hn⟩ := Option.ne_none_iff_exists'.mp (h.ncl hne)
  have w1 : Own p.g.heap (e.blocks ++ n :: ((p.vars.filter (·.1 ≠ k)).flatMap (fun v => v.2.blocks)
      ++ p.g.tables.toList)) := by
    refine h.own.perm ?_
    refine ((hp.flatMap_right (fun v => v.2.blocks)).append_right _).trans ?_
    rw [List.flatMap_cons, List.append_assoc]
    refine List.Perm.append_left _ ?_
    simp only [hn, Bool.false_eq_true, if_false, Option.toList_some, List.cons_append, List.nil_append]
    exact List.perm_middle
  obtain ⟨h', hd, w2, hnn, -⟩ := destroy_own hn w1
  refine ⟨⟨{ p.g with heap := h' }, p.vars.filter (·.1 ≠ k)⟩, by simp [step, he, hd],
    ⟨?_, h.first, ?_, ?_, ?_⟩, keys_filter _ _, rfl⟩
  · show ((p.vars.filter (·.1 ≠ k)).map Prod.fst).Nodup
    rw [keys_filter]; exact h.keys.filter _
  · intro _; simp [hn]
  · intro _ m hm
    have : m = n := by simpa [hn] using hm.symm
    rw [this]; exact hnn
  · simpa using w2

theorem pdel_ub {p : P} (h : PInv p true) (k : Nat) (hk : k ∈ p.vars.map Prod.fst) :
    step p (.del k) = .ub := by
  obtain ⟨e, he⟩ := lookup_of_mem _ _ hk
  have hp := lookup_perm _ _ _ h.keys he
  have hne : p.vars ≠ [] := by rintro h0; simp [h0] at hk
  obtain ⟨n, hn⟩ := Option.ne_none_iff_exists'.mp (h.ncl hne)
  have hdead := h.dead rfl n hn
  have w1 : Own p.g.heap (e.blocks ++ ((p.vars.filter (·.1 ≠ k)).flatMap (fun v => v.2.blocks)
      ++ p.g.tables.toList)) := by
    refine h.own.perm ?_
    refine ((hp.flatMap_right (fun v => v.2.blocks)).append_right _).trans ?_
    rw [List.flatMap_cons, List.append_assoc]
    exact List.Perm.append_left _ (by simp)
  have hobj : p.g.heap.deref (some e.obj) = .ok () := w1.deref (by simp [Obj.blocks])
  simp only [step, he, destroy, hobj, Res.bind_ok]
  cases ha : e.arrs with
  | none => simp [Heap.freeOpt, hn, Heap.free, hdead]
  | some a =>
    have hal : a ∈ p.g.heap.live := w1.live a (by simp [Obj.blocks, ha])
    have hdead' : n ∉ p.g.heap.live.erase a := fun hc => hdead (List.mem_of_mem_erase hc)
    simp [Heap.freeOpt, hn, Heap.free, hal, hdead']

theorem run_pinv (ops : List Op) : ∀ {p : P} {d : Bool}, PInv p d →
    WellFormed (p.vars.map Prod.fst) ops →
    (NoDoubleDelete d ops → ∃ p' d', runP ops p = .ok p' ∧ PInv p' d' ∧
      ((∃ k b, Op.new k b ∈ ops) ∨ p.g.tables ≠ none → p'.g.tables ≠ none)) ∧
    (¬ NoDoubleDelete d ops → runP ops p = .ub) := by
  induction ops with
  | nil =>
    intro p d h _
    refine ⟨fun _ => ⟨p, d, rfl, h, ?_⟩, fun hc => absurd trivial hc⟩
    rintro (⟨k, b, hc⟩ | hc)
    · simp at hc
    · exact hc
  | cons x xs ih =>
    intro p d h hw
    cases x with
    | cleanup => exact hw.elim
    | new k b =>
      obtain ⟨p', e1, i1, k1, t1⟩ := pnew h k b hw.1
      have := ih i1 (by rw [k1]; exact hw.2)
      constructor
      · intro hnd
        obtain ⟨p2, d2, e2, i2, t2⟩ := this.1 hnd.2
        exact ⟨p2, d2, by simp [runP, e1, e2], i2, fun _ => t2 (Or.inr t1)⟩
      · intro hnd
        have h2 := this.2 (fun hc => hnd ⟨by simp [isDel], hc⟩)
        simp [runP, e1, h2]
    | del k =>
      cases d with
      | true =>
        constructor
        · intro hnd; exact absurd ⟨rfl, rfl⟩ hnd.1
        · intro _; simp [runP, pdel_ub h k hw.1]
      | false =>
        obtain ⟨p', e1, i1, k1, t1⟩ := pdel h k hw.1
        have := ih i1 (by rw [k1]; exact hw.2)
        constructor
        · intro hnd
          obtain ⟨p2, d2, e2, i2, t2⟩ := this.1 hnd.2
          refine ⟨p2, d2, by simp [runP, e1, e2], i2, ?_⟩
          rintro (⟨k', b, hm⟩ | ht)
          · simp at hm
            exact t2 (Or.inl ⟨k', b, hm⟩)
          · exact t2 (Or.inr (by rw [t1]; exact ht))
        · intro hnd
          have h2 := this.2 (fun hc => hnd ⟨by simp, hc⟩)
          simp [runP, e1, h2]

/-- **C60.**  Exact condition for C++ callers: whatever events are created, kept and deleted in
whatever order, the program is free of undefined behaviour if and only if no event is deleted
directly after another one, because deleting an event also frees the arrays shared by all events. -/
theorem C60_safe_iff (ops : List Op) (hw : WellFormed [] ops) :
    ((∃ p, runP ops P.init = .ok p) ↔ NoDoubleDelete false ops) ∧
    (¬ NoDoubleDelete false ops → runP ops P.init = .ub) := by
  have h := run_pinv ops pinv_init hw
  refine ⟨⟨?_, ?_⟩, h.2⟩
  · rintro ⟨p, hp⟩
    by_contra hc
    rw [h.2 hc] at hp
    cases hp
  · intro hc
    obtain ⟨p, -, hp, -⟩ := h.1 hc
    exact ⟨p, hp⟩

theorem runP_append (a b : List Op) : ∀ s : P, runP (a ++ b) s = (runP a s >>= runP b) := by
  induction a with
  | nil => intro s; rfl
  | cons x a ih =>
    intro s
    simp only [List.cons_append, runP]
    cases step s x <;> simp [ih]

/-- C60: the shared tables can be freed once; creating an event afterwards, or freeing them again,
is undefined, whatever correct program came before. -/
theorem C60_after_cleanup_undefined (ops : List Op) (hw : WellFormed [] ops)
    (hn : NoDoubleDelete false ops) (k : Nat) (b : Bool) (hm : Op.new k b ∈ ops) :
    (∃ p, runP (ops ++ [.cleanup]) P.init = .ok p) ∧
    runP (ops ++ [.cleanup, .cleanup]) P.init = .ub ∧
    ∀ k' b', runP (ops ++ [.cleanup, .new k' b']) P.init = .ub := by
  obtain ⟨p, d, e, i, t⟩ := (run_pinv ops pinv_init hw).1 hn
  obtain ⟨t0, ht⟩ := Option.ne_none_iff_exists'.mp (t (Or.inl ⟨k, b, hm⟩))
  have hfirst : p.g.first = false := by
    have key : ∀ (l : List Op) (s s' : P), runP l s = .ok s' → (s.g.first = false → s'.g.first = false) ∧
        ((∃ k b, Op.new k b ∈ l) → s'.g.first = false) := by
      intro l
      induction l with
      | nil =>
        intro s s' h
        cases h
        exact ⟨id, by simp⟩
      | cons x l ih =>
        intro s s' h
        simp only [runP] at h
        obtain ⟨s1, h1, h2⟩ := Res.bind_eq_ok.mp h
        have hs1 : (s.g.first = false → s1.g.first = false) ∧
            ((∃ k b, x = Op.new k b) → s1.g.first = false) := by
          cases x with
          | new k b =>
            simp only [step, construct] at h1
            have hff : ∀ g : G, (ensureInit g).first = false := by
              intro g; unfold ensureInit; split <;> simp_all
            obtain ⟨⟨e1, g1⟩, h3, h4⟩ := Res.bind_eq_ok.mp h1
            obtain ⟨_, _, h5⟩ := Res.bind_eq_ok.mp h3
            cases b <;> simp [allocArrs, allocShared] at h5 <;>
              · obtain ⟨-, h5⟩ := h5
                cases h4
                subst h5
                simp [hff]
          | del k =>
            simp only [step] at h1
            split at h1
            · cases h1
            · obtain ⟨g1, h3, h4⟩ := Res.bind_eq_ok.mp h1
              cases h4
              simp only [destroy] at h3
              obtain ⟨_, _, h5⟩ := Res.bind_eq_ok.mp h3
              obtain ⟨_, _, h5⟩ := Res.bind_eq_ok.mp h5
              obtain ⟨_, _, h5⟩ := Res.bind_eq_ok.mp h5
              obtain ⟨_, _, h5⟩ := Res.bind_eq_ok.mp h5
              cases h5
              exact ⟨id, by simp⟩
          | cleanup =>
            simp only [step, cleanup] at h1
            obtain ⟨g1, h3, h4⟩ := Res.bind_eq_ok.mp h1
            cases h4
            obtain ⟨_, _, h5⟩ := Res.bind_eq_ok.mp h3
            obtain ⟨_, _, h5⟩ := Res.bind_eq_ok.mp h5
            cases h5
            exact ⟨id, by simp⟩
        refine ⟨fun h0 => (ih s1 s' h2).1 (hs1.1 h0), ?_⟩
        rintro ⟨k, b, hm⟩
        rcases List.mem_cons.mp hm with hm | hm
        · exact (ih s1 s' h2).1 (hs1.2 ⟨k, b, hm.symm⟩)
        · exact (ih s1 s' h2).2 ⟨k, b, hm⟩
    exact (key ops _ _ e).2 ⟨k, b, hm⟩
  have hlive : t0 ∈ p.g.heap.live := i.own.live t0 (by simp [ht])
  have hdead : t0 ∉ p.g.heap.live.erase t0 := fun hc => (i.own.lnodup.mem_erase_iff.mp hc).1 rfl
  have hlt := i.own.lt t0 hlive
  refine ⟨?_, ?_, ?_⟩
  · rw [runP_append, e]
    simp [runP, step, cleanup, ht, Heap.deref, Heap.freeOpt, Heap.free, hlive]
  · rw [runP_append, e]
    simp [runP, step, cleanup, ht, Heap.deref, Heap.freeOpt, Heap.free, hlive, hdead]
  · intro k' b'
    rw [runP_append, e]
    have hne : ¬ t0 = p.g.heap.next := by omega
    have hne' : ¬ t0 = p.g.heap.next + 1 := by omega
    simp [runP, step, cleanup, ht, Heap.deref, Heap.freeOpt, Heap.free, hlive, construct, ensureInit,
      hfirst, allocShared, Heap.alloc, hdead, hne, hne']

/-- The owned blocks are all the live blocks. -/
def Exact (h : Heap) (o : List Nat) : Prop := Own h o ∧ h.live.length = o.length

theorem Exact.perm {h : Heap} {o o' : List Nat} (x : Exact h o) (p : o.Perm o') : Exact h o' :=
  ⟨x.1.perm p, by rw [x.2, p.length_eq]⟩

theorem Exact.nil {h : Heap} (x : Exact h []) : h.live = [] := List.length_eq_zero_iff.mp x.2

theorem Exact.free {h : Heap} {p : Nat} {o : List Nat} (x : Exact h (p :: o)) :
    ∃ h', h.free p = .ok h' ∧ Exact h' o := by
  obtain ⟨h', e, w, hl, -⟩ := x.1.free
  refine ⟨h', e, w, ?_⟩
  rw [hl, List.length_erase_of_mem (x.1.live p (by simp)), x.2]
  simp

theorem construct_len {g g' : G} {has : Bool} {e : Obj} (h : construct g has = .ok (e, g')) :
    g'.heap.live.length = g.heap.live.length + 2 + e.arrs.toList.length +
      (if g.first then 1 else 0) := by
  simp only [construct] at h
  obtain ⟨-, -, h⟩ := Res.bind_eq_ok.mp h
  cases hf : g.first <;> cases has <;>
    · simp [allocArrs, allocShared, ensureInit, initTables, hf, Heap.alloc] at h
      obtain ⟨h1, h2⟩ := h
      subst h1 h2
      simp

theorem construct_exact {g : G} (has : Bool) (x : Exact g.heap g.tables.toList)
    (h1 : g.first = false → g.tables ≠ none) (h2 : g.first = true → g.tables = none) :
    ∃ e g' n t, construct g has = .ok (e, g') ∧ g'.ncl = some n ∧ g'.tables = some t ∧
      g'.first = false ∧ Exact g'.heap (e.blocks ++ n :: [t]) := by
  obtain ⟨e, g', n, t, c1, c2, c3, c4, c5⟩ := construct_own (o := []) has (by simpa using x.1) h1
  refine ⟨e, g', n, t, c1, c2, c3, c4, c5, ?_⟩
  have hl := construct_len c1
  rw [hl, x.2]
  cases hf : g.first with
  | true => simp [h2 hf, Obj.blocks]; omega
  | false =>
    obtain ⟨t0, ht⟩ := Option.ne_none_iff_exists'.mp (h1 hf)
    simp [ht, Obj.blocks]; omega

theorem destroy_exact {g : G} {e : Obj} {o : List Nat} {n : Nat} (hn : g.ncl = some n)
    (x : Exact g.heap (e.blocks ++ n :: o)) :
    ∃ h', destroy g e = .ok { g with heap := h' } ∧ Exact h' o := by
  have p1 : (e.blocks ++ n :: o).Perm (e.arrs.toList ++ (n :: e.obj :: o)) := by
    have := (List.perm_middle (l₁ := e.arrs.toList ++ [n]) (a := e.obj) (l₂ := o)).symm
    simpa [Obj.blocks] using this
  have hd := x.1.deref (p := e.obj) (by simp [Obj.blocks])
  have x1 := x.perm p1
  have hx2 : ∃ h1, g.heap.freeOpt e.arrs = .ok h1 ∧ Exact h1 (n :: e.obj :: o) := by
    cases ha : e.arrs with
    | none => exact ⟨_, rfl, by simpa [ha] using x1⟩
    | some a => exact Exact.free (by simpa [ha] using x1)
  obtain ⟨h1, e1, x2⟩ := hx2
  obtain ⟨h2, e2, x3⟩ := x2.free
  obtain ⟨h3, e3, x4⟩ := x3.free
  refine ⟨h3, ?_, x4⟩
  simp only [destroy, hd, e1, hn, Res.bind_ok, Res.pure_eq]
  show (h1.free n >>= fun h => h.free e.obj >>= fun h => Res.ok _) = _
  rw [e2, Res.bind_ok, e3, Res.bind_ok]

/-- The driver's program, from a state holding only the tables. -/
theorem main_loop : ∀ (bs : List Bool), bs ≠ [] → ∀ (p : P), Exact p.g.heap p.g.tables.toList →
    (p.g.first = false → p.g.tables ≠ none) → (p.g.first = true → p.g.tables = none) → p.vars = [] →
    ∃ p', runP (mainProgram bs) p = .ok p' ∧ p'.g.heap.live = [] := by
  intro bs
  induction bs with
  | nil => intro h; exact absurd rfl h
  | cons b bs ih =>
    intro _ p hx h1 h2 hv
    obtain ⟨e, g', n, t, c1, c2, c3, c4, c5⟩ := construct_exact b hx h1 h2
    cases bs with
    | nil =>
      -- cleanup, then delete
      have x1 : Exact g'.heap (t :: (e.blocks ++ [n])) := c5.perm (by
        have := List.perm_middle (l₁ := e.blocks ++ [n]) (a := t) (l₂ := [])
        simpa using this)
      have hl : t ∈ g'.heap.live := x1.1.live t (by simp)
      obtain ⟨h', f1, f2⟩ := x1.free
      have f3 : Exact h' (e.blocks ++ n :: []) := f2
      obtain ⟨h'', d1, d2⟩ := destroy_exact (g := { g' with heap := h' }) c2 f3
      refine ⟨⟨{ g' with heap := h'' }, ((0, e) :: p.vars).filter (·.1 ≠ 0)⟩, ?_, d2.nil⟩
      simp only [mainProgram, runP, step, c1, Res.bind_ok, Res.pure_eq, cleanup, c3, Heap.deref, hl,
        if_true, Heap.freeOpt, f1, List.lookup_cons_self]
      simp only [c3] at d1
      rw [d1]; rfl
    | cons b' bs =>
      obtain ⟨h', d1, d2⟩ := destroy_exact c2 c5
      have := ih (by simp) ⟨{ g' with heap := h' }, []⟩ (by simpa [c3] using d2) (by simp [c3])
        (by simp [c4]) rfl
      obtain ⟨p', r1, r2⟩ := this
      refine ⟨p', ?_, r2⟩
      simp only [mainProgram, runP, step, c1, Res.bind_ok, Res.pure_eq, List.lookup_cons_self, d1, hv]
      simpa using r1

/-- **C60.**  The command-line program, for every sequence of events of any length: no undefined
behaviour and every block is freed at the end (the shared tables are freed before the last event). -/
theorem C60_driver_no_leak (bs : List Bool) (hne : bs ≠ []) :
    ∃ p, runP (mainProgram bs) P.init = .ok p ∧ p.g.heap.live = [] := by
  refine main_loop bs hne P.init ⟨own_init, by simp [P.init, G.init]⟩ ?_ ?_ rfl
  · simp [P.init, G.init]
  · simp [P.init, G.init]

/-- C60: with no event at all the clean-up dereferences tables that were never allocated. -/
theorem C60_driver_no_events : runP (mainProgram []) P.init = .ub := rfl

example : ∃ p, runP [.new 1 true, .new 2 false, .del 1, .new 3 true, .del 3] P.init = .ok p :=
  (C60_safe_iff _ (by simp [WellFormed])).1.mpr (by simp [NoDoubleDelete, isDel])

example : runP [.new 1 true, .new 2 true, .del 1, .del 2] P.init = .ub :=
  (C60_safe_iff _ (by simp [WellFormed])).2 (by simp [NoDoubleDelete, isDel])

example : ∃ p, runP (mainProgram [true, false, true]) P.init = .ok p ∧ p.g.heap.live = [] :=
  C60_driver_no_leak _ (by simp)

end CGMF.Props
