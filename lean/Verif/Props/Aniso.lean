import Verif.Tactics
import Verif.Proofs.Aniso
import Verif.Model.Fragments

/-!
# C93: the tabulated fragment anisotropy

`select step num rows flag zaidt e` is the anisotropy coefficient CGMF uses for fission of the target `zaidt`
by neutrons of energy `e` (MeV) when the data file holds the rows `rows` on the grid `0, 0.1, ..., 20`.  The file
step `0.1` is the `double` nearest to it, `f64 (1/10)`, and there are 201 energies.
-/

namespace CGMF.Props

open CGMF CGMF.Aniso

/-- The file layout: `Emin Emax Estep` = `0.0 20.0 0.1` gives 201 energies. -/
theorem C93_steps : steps 0 20 (f64 (1 / 10)) = 201 := by decide +kernel

theorem aniso_key {e : ℚ} {k : Nat} (he : 0 ≤ e) (hk : k ≤ 200) (h : |10 * e - k| ≤ 49 / 100) :
    findEnergy (f64 (1 / 10)) (key e) 201 = if 5 ∣ k then some k else none := by
  unfold key
  rw [tenths_eq he hk h]
  have := find_tenths k (List.mem_range.mpr (by omega))
  push_cast at this ⊢
  exact this

/-- **C93, the table is ignored away from multiples of 0.5 MeV.** For every table, every target and every energy
nearest to a tenth `k/10` MeV with `k` not a multiple of five, the fragments are emitted isotropically: the
comparison of a `float` with a `double` never succeeds. -/
theorem C93_ignored (rows : List Row) (flag : Bool) (zaidt : Int) (e : ℚ) (k : Nat) (he : 0 ≤ e) (hk : k ≤ 200)
    (h : |10 * e - k| ≤ 49 / 100) (h5 : ¬ 5 ∣ k) : select (f64 (1 / 10)) 201 rows flag zaidt e = .ok 1 := by
  have hkey := aniso_key he hk h
  rw [if_neg h5] at hkey
  have gen : ∀ (rs : List Row) (c : ℚ), coefficient (f64 (1 / 10)) 201 zaidt e rs c = .ok c := by
    intro rs
    induction rs with
    | nil => intro c; rfl
    | cons r rs ih => intro c; unfold coefficient; rw [hkey]; simp only [ih, ite_self]
  unfold select
  rw [gen]; exact ite_self _

/-- The hypotheses hold at 1.7 MeV. -/
example : |10 * (17 / 10 : ℚ) - (17 : Nat)| ≤ 49 / 100 ∧ ¬ 5 ∣ 17 := by constructor <;> norm_num

/-- **C93.** At energies nearest to a multiple of 0.5 MeV the tabulated coefficient is used: the one in the row of
the target, at the position of the energy. -/
theorem C93_partial (pre post : List Row) (r : Row) (zaidt : Int) (e : ℚ) (k : Nat) (v : ℚ) (he : 0 ≤ e) (hk : k ≤ 200)
    (h : |10 * e - k| ≤ 49 / 100) (h5 : 5 ∣ k) (hr : r.zaid = zaidt) (hpre : ∀ q ∈ pre, q.zaid ≠ zaidt)
    (hpost : ∀ q ∈ post, q.zaid ≠ zaidt) (hv : r.coef[k]? = some v) :
    select (f64 (1 / 10)) 201 (pre ++ r :: post) true zaidt e = .ok v := by
  have hkey := aniso_key he hk h
  rw [if_pos h5] at hkey
  have skip : ∀ (rs : List Row) (_ : ∀ q ∈ rs, q.zaid ≠ zaidt) (tl : List Row) (c : ℚ),
      coefficient (f64 (1 / 10)) 201 zaidt e (rs ++ tl) c = coefficient (f64 (1 / 10)) 201 zaidt e tl c := by
    intro rs
    induction rs with
    | nil => intro _ tl c; rfl
    | cons q rs ih =>
      intro hq tl c
      rw [List.cons_append]
      rw [coefficient, if_neg (hq q (by simp))]
      exact ih (fun q' h' => hq q' (by simp [h'])) tl c
  unfold select
  rw [if_pos rfl, skip pre hpre, coefficient, if_pos hr, hkey]
  simp only [hv]
  have := skip post hpost [] v
  rw [List.append_nil] at this
  rw [this]; rfl

/-- Without a row for the target, or for reactions without the flag, the emission is isotropic. -/
theorem C93_default (rows : List Row) (flag : Bool) (zaidt : Int) (e : ℚ)
    (h : flag = false ∨ ∀ q ∈ rows, q.zaid ≠ zaidt) : select (f64 (1 / 10)) 201 rows flag zaidt e = .ok 1 := by
  unfold select
  rcases h with rfl | h
  · rfl
  · have gen : ∀ (rs : List Row) (_ : ∀ q ∈ rs, q.zaid ≠ zaidt) (c : ℚ),
        coefficient (f64 (1 / 10)) 201 zaidt e rs c = .ok c := by
      intro rs
      induction rs with
      | nil => intro _ c; rfl
      | cons q rs ih =>
        intro hq c
        rw [coefficient, if_neg (hq q (by simp))]
        exact ih (fun q' h' => hq q' (by simp [h'])) c
    rw [gen rows h]; exact ite_self _

/-- A row for uranium-235 with an anisotropy of 1.2 at every energy. -/
def anisoRow : Row := ⟨92235, List.replicate 201 (6 / 5)⟩

/-- The hypotheses of `C93_partial` at 1.5 MeV. -/
example : select (f64 (1 / 10)) 201 [anisoRow] true 92235 (3 / 2) = .ok (6 / 5) := by
  refine C93_partial [] [] anisoRow 92235 (3 / 2) 15 (6 / 5) (by norm_num) (by norm_num) (by norm_num) (by norm_num)
    (by norm_num [anisoRow]) (by simp) (by simp) ?_
  show (List.replicate 201 (6 / 5 : ℚ))[15]? = some (6 / 5)
  rw [List.getElem?_replicate, if_pos (by norm_num)]

/-- **C93 is false in general.** The table says 1.2 at every energy; 1.5 MeV neutrons get 1.2 and 1.7 MeV neutrons
get isotropic fragments, for which no angular table is made at all. -/
theorem C93_refuted : select (f64 (1 / 10)) 201 [anisoRow] true 92235 (3 / 2) = .ok (6 / 5) ∧
    select (f64 (1 / 10)) 201 [anisoRow] true 92235 (17 / 10) = .ok 1 ∧
    Frag.angular (1 : ℚ) 50 = none := by
  refine ⟨?_, ?_, by decide +kernel⟩
  · refine C93_partial [] [] anisoRow 92235 (3 / 2) 15 (6 / 5) (by norm_num) (by norm_num) (by norm_num) (by norm_num)
      (by norm_num [anisoRow]) (by simp) (by simp) ?_
    show (List.replicate 201 (6 / 5 : ℚ))[15]? = some (6 / 5)
    rw [List.getElem?_replicate, if_pos (by norm_num)]
  · exact C93_ignored [anisoRow] true 92235 (17 / 10) 17 (by norm_num) (by norm_num) (by norm_num) (by norm_num)

end CGMF.Props
