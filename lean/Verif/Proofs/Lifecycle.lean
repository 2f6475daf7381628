import Verif.Tactics
import Verif.Model.Lifecycle

/-!
# Ownership lemmas
-/

set_option linter.unusedSimpArgs false

namespace CGMF.Life

/-- The blocks `o` are live, distinct, and the heap is well formed. -/
structure Own (h : Heap) (o : List Nat) : Prop where
  nodup : o.Nodup
  live : ∀ x ∈ o, x ∈ h.live
  lnodup : h.live.Nodup
  lt : ∀ x ∈ h.live, x < h.next

theorem own_init : Own ⟨0, []⟩ [] := ⟨by simp, by simp, by simp, by simp⟩

theorem Own.alloc {h : Heap} {o : List Nat} (w : Own h o) : Own h.alloc.2 (h.alloc.1 :: o) := by
  have hn : h.next ∉ h.live := fun hc => lt_irrefl _ (w.lt _ hc)
  refine ⟨?_, ?_, ?_, ?_⟩
  · exact List.nodup_cons.mpr ⟨fun hc => hn (w.live _ hc), w.nodup⟩
  · intro x hx
    simp only [Heap.alloc, List.mem_cons] at hx ⊢
    rcases hx with rfl | hx
    · exact Or.inl rfl
    · exact Or.inr (w.live x hx)
  · exact List.nodup_cons.mpr ⟨hn, w.lnodup⟩
  · intro x hx
    simp only [Heap.alloc, List.mem_cons] at hx ⊢
    rcases hx with rfl | hx
    · omega
    · have := w.lt x hx; omega

theorem Own.perm {h : Heap} {o o' : List Nat} (w : Own h o) (p : o.Perm o') : Own h o' :=
  ⟨p.nodup_iff.mp w.nodup, fun x hx => w.live x (p.mem_iff.mpr hx), w.lnodup, w.lt⟩

theorem Own.sub {h : Heap} {o o' : List Nat} (w : Own h o) (p : o'.Sublist o) : Own h o' :=
  ⟨w.nodup.sublist p, fun x hx => w.live x (p.subset hx), w.lnodup, w.lt⟩

theorem Own.free {h : Heap} {p : Nat} {o : List Nat} (w : Own h (p :: o)) :
    ∃ h', h.free p = .ok h' ∧ Own h' o ∧ h'.live = h.live.erase p ∧ p ∉ h'.live := by
  have hp : p ∈ h.live := w.live p (by simp)
  refine ⟨{ h with live := h.live.erase p }, by simp [Heap.free, hp], ⟨?_, ?_, ?_, ?_⟩, rfl, ?_⟩
  · exact (List.nodup_cons.mp w.nodup).2
  · intro x hx
    have hne : x ≠ p := by rintro rfl; exact (List.nodup_cons.mp w.nodup).1 hx
    exact (List.mem_erase_of_ne hne).mpr (w.live x (by simp [hx]))
  · exact w.lnodup.erase p
  · intro x hx; exact w.lt x (List.mem_of_mem_erase hx)
  · exact w.lnodup.not_mem_erase

theorem Own.freeOpt {h : Heap} {p : Option Nat} {o : List Nat} (w : Own h (p.toList ++ o)) :
    ∃ h', h.freeOpt p = .ok h' ∧ Own h' o := by
  cases p with
  | none => exact ⟨h, rfl, by simpa using w⟩
  | some p =>
    obtain ⟨h', e, w', -, -⟩ := Own.free (by simpa using w)
    exact ⟨h', e, w'⟩

theorem Own.deref {h : Heap} {p : Nat} {o : List Nat} (w : Own h o) (hp : p ∈ o) :
    h.deref (some p) = .ok () := by
  simp [Heap.deref, w.live p hp]

/-- Blocks of an object. -/
def Obj.blocks (e : Obj) : List Nat := e.obj :: e.arrs.toList

/-- Construction from a state whose tables are alive or not yet needed.  `o` are blocks owned by
others; the old shared block is lost. -/
theorem construct_own {g : G} {o : List Nat} (has : Bool)
    (w : Own g.heap (g.tables.toList ++ o)) (ht : g.first = false → g.tables ≠ none) :
    ∃ e g' n t, construct g has = .ok (e, g') ∧ g'.ncl = some n ∧ g'.tables = some t ∧
      g'.first = false ∧ Own g'.heap (e.blocks ++ (n :: t :: o)) := by
  -- object
  have w1 := w.alloc
  set o1 := g.heap.alloc.1
  set h1 := g.heap.alloc.2
  -- tables
  have key : ∃ t h2, ensureInit { g with heap := h1 } =
      { g with heap := h2, tables := some t, first := false } ∧ Own h2 (t :: o1 :: o) := by
    unfold ensureInit
    by_cases hg : g.first = true
    · have w2 := w1.alloc
      refine ⟨h1.alloc.1, h1.alloc.2, by simp [hg, initTables], ?_⟩
      refine w2.sub ?_
      exact ((List.sublist_append_right _ _).cons₂ _).cons₂ _
    · have hg' : g.first = false := by simpa using hg
      obtain ⟨t, htt⟩ := Option.ne_none_iff_exists'.mp (ht hg')
      refine ⟨t, h1, by simp [hg', htt], ?_⟩
      rw [htt] at w1
      refine w1.perm ?_
      simpa using List.Perm.swap _ _ _
  obtain ⟨t, h2, he, w2⟩ := key
  have w3 := w2.alloc
  set n := h2.alloc.1
  set h3 := h2.alloc.2
  have hd : h3.deref (some t) = .ok () := w3.deref (by simp)
  unfold construct
  simp only
  rw [show ({ g with heap := g.heap.alloc.2 } : G) = { g with heap := h1 } from rfl, he]
  simp only [allocShared]
  rw [show h2.alloc.2 = h3 from rfl, hd]
  simp only [Res.bind_ok, Res.pure_eq]
  cases has with
  | false =>
    refine ⟨_, _, n, t, rfl, rfl, rfl, rfl, ?_⟩
    simp only [allocArrs, Bool.false_eq_true, if_false, Obj.blocks, Option.toList]
    refine w3.perm ?_
    show (n :: t :: o1 :: o).Perm ([o1] ++ (n :: t :: o))
    exact (List.perm_middle (l₁ := [n, t]) (a := o1) (l₂ := o))
  | true =>
    have w4 := w3.alloc
    refine ⟨_, _, n, t, rfl, rfl, rfl, rfl, ?_⟩
    simp only [allocArrs, if_true, Obj.blocks, Option.toList]
    refine w4.perm ?_
    show (h3.alloc.1 :: n :: t :: o1 :: o).Perm ([o1, h3.alloc.1] ++ (n :: t :: o))
    exact (List.perm_middle (l₁ := [h3.alloc.1, n, t]) (a := o1) (l₂ := o))

/-- Destruction when the object and the shared block are alive. -/
theorem destroy_own {g : G} {e : Obj} {o : List Nat} {n : Nat} (hn : g.ncl = some n)
    (w : Own g.heap (e.blocks ++ n :: o)) :
    ∃ h', destroy g e = .ok { g with heap := h' } ∧ Own h' o ∧ n ∉ h'.live ∧ e.obj ∉ h'.live := by
  unfold destroy
  rw [w.deref (by simp [Obj.blocks])]
  simp only [Res.bind_ok]
  have p1 : (e.blocks ++ n :: o).Perm (e.arrs.toList ++ (n :: e.obj :: o)) := by
    have := (List.perm_middle (l₁ := e.arrs.toList ++ [n]) (a := e.obj) (l₂ := o)).symm
    simpa [Obj.blocks] using this
  obtain ⟨h1, e1, w1⟩ := (w.perm p1).freeOpt
  rw [e1, hn]
  simp only [Res.bind_ok, Heap.freeOpt]
  obtain ⟨h2, e2, w2, l2, nn2⟩ := w1.free
  rw [e2]
  simp only [Res.bind_ok]
  obtain ⟨h3, e3, w3, l3, nn3⟩ := w2.free
  rw [e3]
  refine ⟨h3, rfl, w3, ?_, nn3⟩
  rw [l3]; exact fun hc => nn2 (List.mem_of_mem_erase hc)

end CGMF.Life
