import Verif.Spec.CApi
import Verif.Spec.Event
import Verif.Proofs.Event
import Mathlib.Data.List.GetD
import Verif.Tactics

/-!
# C140: the C interface

Readable from the statements with `Spec/CApi.lean`.
-/

namespace CGMF.Props

open CGMF CGMF.Event CGMF.CApi CGMF.CApiSpec CGMF.Spec

variable {K : Type} [Field K] [LinearOrder K]

theorem entry_map {α : Type} (xs : List α) (f : α → K) (n : Nat) (h : xs.length = n) (i : Int) :
    getter n (xs.map fun x => some (f x)) i = .ok (entry (xs.map f) i) := by
  rw [getter_map n xs f h]
  unfold entry
  by_cases h0 : i < 0
  · rw [dif_neg (by omega), if_pos h0]
  · rw [if_neg h0]
    by_cases h1 : i < n
    · rw [dif_pos ⟨by omega, h1⟩, List.getD_eq_getElem _ _ (by rw [List.length_map]; omega), List.getElem_map]
    · rw [dif_neg (by omega), List.getD_eq_default _ _ (by rw [List.length_map]; omega)]

/-- Every accessor of a constructed event shows the quantity of its name. -/
theorem accessor_value (sqrt : K → K) (nmass : K) (c : Content K) (hl : WellFormed c.light.parts) (hh : WellFormed c.heavy.parts)
    (o : Obj K) (ho : construct sqrt nmass c.time c.light c.heavy c.pre.length c.pre = .ok o) (q : Quantity) (i : Int) :
    ∃ f, accessor q.name = some f ∧ f o i = .ok (q.value sqrt nmass c i) := by
  have e1 := hl.neutrons
  have e2 := hl.photons
  have e3 := hh.neutrons
  have e4 := hh.photons
  simp only [List.mem_cons, List.not_mem_nil, or_false, forall_eq_or_imp, forall_eq] at e1 e2 e3 e4
  obtain ⟨a1, a2, a3, a4, a5, a6, a7, a8⟩ := e1
  obtain ⟨b1, b2, b3, b4, b5⟩ := e2
  obtain ⟨c1, c2, c3, c4, c5, c6, c7, c8⟩ := e3
  obtain ⟨d1, d2, d3, d4, d5⟩ := e4
  have n1 := hl.nu_le
  have n2 := hl.nug_le
  have n3 := hh.nu_le
  have n4 := hh.nug_le
  unfold construct assemble at ho
  simp only at ho
  rw [preCol_ok _ _ _ le_rfl, preCol_ok _ _ _ le_rfl, preCol_ok _ _ _ le_rfl, preCol_ok _ _ _ le_rfl,
    assembleCol_ok _ _ _ _ _ (by omega) (by omega), assembleCol_ok _ _ _ _ _ (by omega) (by omega),
    assembleCol_ok _ _ _ _ _ (by omega) (by omega), assembleCol_ok _ _ _ _ _ (by omega) (by omega),
    assembleCol_ok _ _ _ _ _ (by omega) (by omega), assembleCol_ok _ _ _ _ _ (by omega) (by omega),
    assembleCol_ok _ _ _ _ _ (by omega) (by omega), assembleCol_ok _ _ _ _ _ (by omega) (by omega),
    assembleCol_ok _ _ _ _ _ (by omega) (by omega), assembleCol_ok _ _ _ _ _ (by omega) (by omega),
    assembleCol_ok _ _ _ _ _ (by omega) (by omega), assembleCol_ok _ _ _ _ _ (by omega) (by omega),
    assembleCol_ok _ _ _ _ _ (by omega) (by omega), assembleCol_ok _ _ _ _ _ (by omega) (by omega)] at ho
  simp only [Res.bind_ok, Res.pure_eq, Res.bind] at ho
  obtain rfl := Res.ok.inj ho
  have hlen : ∀ (g : FragRecord K → List K) (n : FragRecord K → Nat), n c.light.parts ≤ (g c.light.parts).length →
      n c.heavy.parts ≤ (g c.heavy.parts).length →
      ((g c.light.parts).take (n c.light.parts) ++ (g c.heavy.parts).take (n c.heavy.parts)).length = n c.light.parts + n c.heavy.parts := by
    intro g n h1 h2
    simp [h1, h2]
  have col : ∀ (g : FragRecord K → List K) (n : FragRecord K → Nat), n c.light.parts ≤ (g c.light.parts).length →
      n c.heavy.parts ≤ (g c.heavy.parts).length →
      getter (n c.light.parts + n c.heavy.parts) (((g c.light.parts).take (n c.light.parts) ++ (g c.heavy.parts).take (n c.heavy.parts)).map
        fun x => some (id x)) i = .ok (entry (both c n g) i) := by
    intro g n h1 h2
    rw [entry_map _ id _ (hlen g n h1 h2) i, List.map_id]
    rfl
  have pcol : ∀ g : PreNeutron K → K, getter c.pre.length ((c.pre.take c.pre.length).map fun x => some (g x)) i = .ok (entry (c.pre.map g) i) := by
    intro g
    rw [List.take_length, entry_map _ g _ rfl i]
  cases q with
  | neutrons => exact ⟨_, rfl, rfl⟩
  | photons => exact ⟨_, rfl, rfl⟩
  | preNeutrons => exact ⟨_, rfl, rfl⟩
  | frag heavy q => cases heavy <;> cases q <;> first | exact ⟨_, rfl, rfl⟩ | (rename_i a; cases a <;> exact ⟨_, rfl, rfl⟩)
  | neutron q =>
      cases q with
      | energy => exact ⟨_, rfl, col (·.neutronEnergies) (·.nu) (by omega) (by omega)⟩
      | dir a =>
          cases a
          · exact ⟨_, rfl, col (·.neutronDircosu) (·.nu) (by omega) (by omega)⟩
          · exact ⟨_, rfl, col (·.neutronDircosv) (·.nu) (by omega) (by omega)⟩
          · exact ⟨_, rfl, col (·.neutronDircosw) (·.nu) (by omega) (by omega)⟩
  | cmNeutron q =>
      cases q with
      | energy => exact ⟨_, rfl, col (·.cmNeutronEnergies) (·.nu) (by omega) (by omega)⟩
      | dir a =>
          cases a
          · exact ⟨_, rfl, col (·.cmNeutronDircosu) (·.nu) (by omega) (by omega)⟩
          · exact ⟨_, rfl, col (·.cmNeutronDircosv) (·.nu) (by omega) (by omega)⟩
          · exact ⟨_, rfl, col (·.cmNeutronDircosw) (·.nu) (by omega) (by omega)⟩
  | photon q =>
      cases q with
      | energy => exact ⟨_, rfl, col (·.photonEnergies) (·.nug) (by omega) (by omega)⟩
      | dir a =>
          cases a
          · exact ⟨_, rfl, col (·.photonDircosu) (·.nug) (by omega) (by omega)⟩
          · exact ⟨_, rfl, col (·.photonDircosv) (·.nug) (by omega) (by omega)⟩
          · exact ⟨_, rfl, col (·.photonDircosw) (·.nug) (by omega) (by omega)⟩
  | preNeutron q =>
      have hv : ∀ p : PreNeutron K, p.v2 = p.vx ^ 2 + p.vy ^ 2 + p.vz ^ 2 := fun p => by unfold PreNeutron.v2; ring
      cases q with
      | energy =>
          refine ⟨_, rfl, (pcol _).trans ?_⟩
          have he : preEnergy nmass = fun p : PreNeutron K => nmass * (p.vx ^ 2 + p.vy ^ 2 + p.vz ^ 2) / 2 := by
            funext p
            unfold preEnergy
            rw [hv]
            ring
          rw [he]
          rfl
      | dir a =>
          cases a
          · refine ⟨_, rfl, (pcol _).trans ?_⟩
            simp only [Quantity.value, hv, Axis.of]
          · refine ⟨_, rfl, (pcol _).trans ?_⟩
            simp only [Quantity.value, hv, Axis.of]
          · refine ⟨_, rfl, (pcol _).trans ?_⟩
            simp only [Quantity.value, hv, Axis.of]
  | neutronTime =>
      refine ⟨_, rfl, (entry_map _ (fun _ => c.time) _ (hlen (·.neutronEnergies) (·.nu) (by omega) (by omega)) i).trans ?_⟩
      have := hlen (·.neutronEnergies) (·.nu) (by omega) (by omega)
      simp only [Quantity.value]
      rw [List.map_const', this]
  | photonTime =>
      exact ⟨_, rfl, entry_map _ (fun a => c.time + a) _ (hlen (·.photonAges) (·.nug) (by omega) (by omega)) i⟩

/-- The accessors of all quantities can be linked. -/
theorem linked_name (q : Quantity) : linked q.name = true := by
  cases q with
  | frag heavy q => cases heavy <;> cases q <;> first | decide +kernel | (rename_i a; cases a <;> decide +kernel)
  | neutron q => cases q <;> first | decide +kernel | (rename_i a; cases a <;> decide +kernel)
  | cmNeutron q => cases q <;> first | decide +kernel | (rename_i a; cases a <;> decide +kernel)
  | photon q => cases q <;> first | decide +kernel | (rename_i a; cases a <;> decide +kernel)
  | preNeutron q => cases q <;> first | decide +kernel | (rename_i a; cases a <;> decide +kernel)
  | _ => decide +kernel

theorem exec_append_gen (o : Obj K) (p : List (Stmt K)) : ∀ (pre : List (Stmt K)) (s : Option (Obj K)) (vs : List K),
    exec s pre = .ok vs → exec s (pre ++ .gen o :: p) = (exec (some o) p).bind fun ws => .ok (vs ++ ws)
  | [], s, vs, h => by
      unfold exec at h
      obtain rfl := Res.ok.inj h
      rw [List.nil_append]
      have : exec s (.gen o :: p) = exec (some o) p := by cases s <;> rfl
      rw [this]
      cases exec (some o) p <;> rfl
  | .gen o' :: pre, s, vs, h => by
      have hs : ∀ t, exec s (.gen o' :: t) = exec (some o') t := fun t => by cases s <;> rfl
      rw [List.cons_append, hs]
      rw [hs] at h
      exact exec_append_gen o p pre _ vs h
  | .get name i :: pre, none, vs, h => by cases h
  | .get name i :: pre, some o', vs, h => by
      have hx : ∀ t, exec (some o') (.get name i :: t) = (match accessor (K := K) name with
          | some f => (f o' i).bind fun x => (exec (some o') t).bind fun xs => .ok (x :: xs)
          | none => .ub) := fun _ => rfl
      rw [List.cons_append, hx]
      rw [hx] at h
      cases ha : accessor (K := K) name with
      | none => rw [ha] at h; cases h
      | some f =>
          rw [ha] at h
          simp only at h ⊢
          cases hf : f o' i with
          | ok x =>
              rw [hf] at h
              simp only [Res.bind] at h ⊢
              cases hp : exec (some o') pre with
              | ok xs =>
                  rw [hp] at h
                  have ih := exec_append_gen o p pre _ xs hp
                  simp only at h
                  obtain rfl := Res.ok.inj h
                  rw [ih]
                  cases exec (some o) p <;> rfl
              | exit => rw [hp] at h; cases h
              | ub => rw [hp] at h; cases h
          | exit => rw [hf] at h; cases h
          | ub => rw [hf] at h; cases h

/-- **C140.**  Whatever a C program did before (here `before`, with the numbers `vs` it got), after it has made an event every
accessor, called in any order, any number of times and with any index, returns the quantity of its name of this event. -/
theorem C140_partial (sqrt : K → K) (nmass : K) (before : List (Stmt K)) (vs : List K) (hb : run before = some (.ok vs))
    (c : Content K) (hl : WellFormed c.light.parts) (hh : WellFormed c.heavy.parts) (o : Obj K)
    (ho : construct sqrt nmass c.time c.light c.heavy c.pre.length c.pre = .ok o) (qs : List (Quantity × Int)) :
    run (before ++ .gen o :: qs.map fun q => .get q.1.name q.2) =
      some (.ok (vs ++ qs.map fun q => q.1.value sqrt nmass c q.2)) := by
  unfold run at hb ⊢
  split_ifs at hb with hall
  have he := Option.some.inj hb
  rw [if_pos, exec_append_gen o _ before none vs he]
  · have : exec (some o) (qs.map fun q => Stmt.get q.1.name q.2) = .ok (qs.map fun q => q.1.value sqrt nmass c q.2) := by
      clear hb hall he
      induction qs with
      | nil => rfl
      | cons q qs ih =>
          obtain ⟨f, h1, h2⟩ := accessor_value sqrt nmass c hl hh o ho q.1 q.2
          simp only [List.map_cons]
          unfold exec
          rw [h1]
          simp only
          rw [h2, ih]
          rfl
    rw [this]
    rfl
  · rw [List.all_append, hall, List.all_cons, Bool.true_and]
    refine Bool.and_eq_true_iff.2 ⟨rfl, ?_⟩
    rw [List.all_map, List.all_eq_true]
    intro q _
    exact linked_name q.1

/-- **C140** (before the first event): an accessor reads through a null pointer. -/
theorem C140_null (q : Quantity) (i : Int) (rest : List (Stmt K)) (h : (run rest).isSome) :
    run (.get q.name i :: rest) = some .ub := by
  unfold run at h ⊢
  split_ifs at h with hall
  · rw [List.all_cons, if_pos]
    · rfl
    · rw [hall, Bool.and_true]
      exact linked_name q
  · cases h

/-- **C140** (the other functions): a program that uses any other function that the header declares does not link, exactly
for the directions of the fragments after emission and for the fission yields. -/
theorem C140_refuted (d : String × List String) (hd : d ∈ header) :
    linked d.1 = false ↔ d.1 ∈ ["cgmf_getpostlfdircosu", "cgmf_getpostlfdircosv", "cgmf_getpostlfdircosw",
      "cgmf_getposthfdircosu", "cgmf_getposthfdircosv", "cgmf_getposthfdircosw", "cgmf_genfissyields"] := by
  have h : ∀ d ∈ header, (linked d.1 = false ↔ d.1 ∈ ["cgmf_getpostlfdircosu", "cgmf_getpostlfdircosv", "cgmf_getpostlfdircosw",
      "cgmf_getposthfdircosu", "cgmf_getposthfdircosv", "cgmf_getposthfdircosw", "cgmf_genfissyields"]) := by decide +kernel
  exact h d hd

/-- Such a program: nothing of it runs, whatever else it contains. -/
theorem C140_unresolved (p : List (Stmt K)) (name : String) (i : Int) (hp : .get name i ∈ p) (hn : linked name = false) :
    run p = none := by
  unfold run
  rw [if_neg]
  intro h
  have := List.all_eq_true.1 h _ hp
  simp only at this
  rw [hn] at this
  cases this

/-! ## Cases -/

def recA (x : ℚ) : FragRecord ℚ :=
  ⟨1, [x, 0, 0, 0, 0, 0, 0, 0, 0, 0], [1, 0, 0, 0, 0, 0, 0, 0, 0, 0], [0, 0, 0, 0, 0, 0, 0, 0, 0, 0], [0, 0, 0, 0, 0, 0, 0, 0, 0, 0],
    [2 * x, 0, 0, 0, 0, 0, 0, 0, 0, 0], [0, 0, 0, 0, 0, 0, 0, 0, 0, 0], [1, 0, 0, 0, 0, 0, 0, 0, 0, 0], [0, 0, 0, 0, 0, 0, 0, 0, 0, 0],
    2, x :: 3 :: List.replicate 48 0, List.replicate 50 0, List.replicate 50 1, List.replicate 50 0, 5 :: 7 :: List.replicate 48 0⟩

def eventA (a : Int) : Content ℚ :=
  { light := ⟨a, 40, 100, 99, 20, 7 / 2, 1, (1, 2, 3), (4, 5, 6), 1, 0, 0, recA 1⟩
    heavy := ⟨240 - a, 54, 70, 69, 15, 4, -1, (-1, -2, -3), (-4, -5, -6), -1, 0, 0, recA 9⟩
    pre := [⟨2, 0, 0⟩], time := 10 }

theorem recA_wf (x : ℚ) : WellFormed (recA x) := by constructor <;> simp [recA]

/-- Two events; after the second its numbers are seen: the charge of the heavy fragment, both neutrons and the -1 behind
them, the time of the second photon of the heavy fragment, the pre-fission neutron. -/
example : ∃ o1 o2, construct (fun x => x / 2) 1 10 (eventA 100).light (eventA 100).heavy 1 (eventA 100).pre = .ok o1 ∧
    construct (fun x => x / 2) 1 10 (eventA 96).light (eventA 96).heavy 1 (eventA 96).pre = .ok o2 ∧
    run [.gen o1, .get "cgmf_getlfmass" 0, .gen o2, .get "cgmf_getlfmass" 0, .get "cgmf_gethfcharge" 0, .get "cgmf_getnerg" 0,
      .get "cgmf_getnerg" 1, .get "cgmf_getnerg" 2, .get "cgmf_getgtme" 3, .get "cgmf_getprenerg" 0,
      .get "cgmf_getlfpostmomentum_z" 0] = some (.ok [100, 96, 54, 1, 9, -1, 17, 2, 6]) := by
  have h1 : ∃ o1, construct (fun x => x / 2) 1 10 (eventA 100).light (eventA 100).heavy 1 (eventA 100).pre = .ok o1 := ⟨_, rfl⟩
  have h2 : ∃ o2, construct (fun x => x / 2) 1 10 (eventA 96).light (eventA 96).heavy 1 (eventA 96).pre = .ok o2 := ⟨_, rfl⟩
  obtain ⟨o1, h1⟩ := h1
  obtain ⟨o2, h2⟩ := h2
  refine ⟨o1, o2, h1, h2, ?_⟩
  have hb := C140_partial (fun x => x / 2) 1 [] [] (by rfl) (eventA 100) (recA_wf 1) (recA_wf 9) o1 h1 [(.frag false .mass, 0)]
  have h := C140_partial (fun x => x / 2) 1 _ _ hb (eventA 96) (recA_wf 1) (recA_wf 9) o2 h2
    [(.frag false .mass, 0), (.frag true .charge, 0), (.neutron .energy, 0), (.neutron .energy, 1), (.neutron .energy, 2),
     (.photonTime, 3), (.preNeutron .energy, 0), (.frag false (.post .three), 0)]
  refine Eq.trans (Eq.trans (by rfl) h) (congrArg some (congrArg Res.ok ?_))
  decide +kernel

/-- The direction of a fragment after emission cannot be asked for. -/
example (o : Obj ℚ) : run [.gen o, .get "cgmf_getpostlfdircosu" 0] = none :=
  C140_unresolved _ "cgmf_getpostlfdircosu" 0 (by simp) ((C140_refuted ("cgmf_getpostlfdircosu", []) (by decide +kernel)).2 (by simp))

end CGMF.Props
