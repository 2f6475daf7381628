import Verif.Spec.Overflow
import Verif.Spec.Driver
import Verif.Props.Driver
import Verif.Tactics

/-!
# C138: how many events a run can have

Readable from the statements with `Model/Overflow.lean` (the counters as 32-bit numbers) and `Spec/Overflow.lean`.
-/

namespace CGMF.Props

open CGMF CGMF.Driver CGMF.Spec

variable {K : Type _}

/-- The counters with numbers of any size. -/
def Counts.plus (a b : Counts) : Counts :=
  ⟨a.aL + b.aL, a.zL + b.zL, a.aH + b.aH, a.zH + b.zH, a.nuL + b.nuL, a.nuH + b.nuH, a.nuPre + b.nuPre, a.nuTot + b.nuTot,
    a.nugL + b.nugL, a.nugH + b.nugH, a.nugTot + b.nugTot⟩

/-- What the counters of a run satisfy. -/
def CountsOk (c : Counts) : Prop :=
  0 ≤ c.aL ∧ 0 ≤ c.zL ∧ 0 ≤ c.aH ∧ 0 ≤ c.zH ∧ 0 ≤ c.nuL ∧ 0 ≤ c.nuH ∧ 0 ≤ c.nuPre ∧ 0 ≤ c.nugL ∧ 0 ≤ c.nugH ∧
  c.nuTot = c.nuL + c.nuH + c.nuPre ∧ c.nugTot = c.nugL + c.nugH

theorem int32_fits {x : Int} (h0 : 0 ≤ x) (h : x ≤ 2147483647) : int32 x = .ok x := by
  unfold int32; rw [if_pos ⟨by omega, h⟩]

theorem int32_over {x : Int} (h : 2147483647 < x) : int32 x = .ub := by
  unfold int32; rw [if_neg (by omega)]

theorem int32_cases {x : Int} (h0 : 0 ≤ x) : (x ≤ 2147483647 ∧ int32 x = .ok x) ∨ (2147483647 < x ∧ int32 x = .ub) := by
  rcases le_or_gt x 2147483647 with h | h
  · exact .inl ⟨h, int32_fits h0 h⟩
  · exact .inr ⟨h, int32_over h⟩

theorem totalsOf_cons (e : View K) (es : List (View K)) : totalsOf (e :: es) = Counts.plus (totalsOf [e]) (totalsOf es) := by
  simp [totalsOf, Counts.plus]

theorem totalsOf_append (es fs : List (View K)) : totalsOf (es ++ fs) = Counts.plus (totalsOf es) (totalsOf fs) := by
  simp [totalsOf, Counts.plus]

theorem totalsOf_ok {evs : List (View K)} (h : ∀ e ∈ evs, Physical e) : CountsOk (totalsOf evs) := by
  induction evs with
  | nil => simp [totalsOf, CountsOk]
  | cons e es ih =>
      have i := ih fun x hx => h x (List.mem_cons_of_mem _ hx)
      obtain ⟨p1, p2, p3, p4⟩ := h e (by simp)
      simp only [CountsOk, totalsOf, List.map_cons, List.sum_cons] at i ⊢
      push_cast at i ⊢
      omega

/-- A sum that fits. -/
macro "fits32" : tactic => `(tactic| (rw [int32_fits (by omega) (by omega)]; simp only [Res.bind_ok]))

/-- One event. -/
theorem record32_eq {s : Counts} {e : View K} (hs : CountsOk s) (he : Physical e) :
    ((Counts.plus s (totalsOf [e])).AtMost 2147483647 → record32 s e = .ok (Counts.plus s (totalsOf [e]))) ∧
    (¬ (Counts.plus s (totalsOf [e])).AtMost 2147483647 → record32 s e = .ub) := by
  obtain ⟨h1, h2, h3, h4, h5, h6, h7, h8, h9, h10, h11⟩ := hs
  obtain ⟨p1, p2, p3, p4⟩ := he
  have q1 : (0 : Int) ≤ e.nuL := Int.natCast_nonneg _
  have q2 : (0 : Int) ≤ e.nuH := Int.natCast_nonneg _
  have q3 : (0 : Int) ≤ e.nuPre := Int.natCast_nonneg _
  have q4 : (0 : Int) ≤ e.nugL := Int.natCast_nonneg _
  have q5 : (0 : Int) ≤ e.nugH := Int.natCast_nonneg _
  simp only [Counts.plus, totalsOf, Counts.AtMost, List.map_cons, List.map_nil, List.sum_cons, List.sum_nil, add_zero]
  push_cast
  rw [h10, h11]
  unfold record32
  constructor
  · rintro ⟨a1, a2, a3, a4, a5, a6, a7, a8, a9, a10, a11⟩
    fits32; fits32; fits32; fits32; fits32; fits32; fits32; fits32; fits32; fits32; fits32; fits32
    simp only [Res.pure_eq, Res.ok.injEq, Counts.mk.injEq, true_and, and_true]
    omega
  · intro hno
    rcases int32_cases (x := s.aL + e.aL) (by omega) with ⟨u1, w⟩ | ⟨_, w⟩ <;> rw [w] <;> [skip; rfl]
    rcases int32_cases (x := s.zL + e.zL) (by omega) with ⟨u2, w⟩ | ⟨_, w⟩ <;> rw [Res.bind_ok, w] <;> [skip; rfl]
    rcases int32_cases (x := s.aH + e.aH) (by omega) with ⟨u3, w⟩ | ⟨_, w⟩ <;> rw [Res.bind_ok, w] <;> [skip; rfl]
    rcases int32_cases (x := s.zH + e.zH) (by omega) with ⟨u4, w⟩ | ⟨_, w⟩ <;> rw [Res.bind_ok, w] <;> [skip; rfl]
    rcases int32_cases (x := s.nuL + e.nuL) (by omega) with ⟨u5, w⟩ | ⟨_, w⟩ <;> rw [Res.bind_ok, w] <;> [skip; rfl]
    rcases int32_cases (x := s.nuH + e.nuH) (by omega) with ⟨u6, w⟩ | ⟨_, w⟩ <;> rw [Res.bind_ok, w] <;> [skip; rfl]
    rcases int32_cases (x := s.nuPre + e.nuPre) (by omega) with ⟨u7, w⟩ | ⟨_, w⟩ <;> rw [Res.bind_ok, w] <;> [skip; rfl]
    rcases int32_cases (x := s.nuL + e.nuL + (s.nuH + e.nuH)) (by omega) with ⟨u8, w⟩ | ⟨_, w⟩ <;> rw [Res.bind_ok, w] <;> [skip; rfl]
    rcases int32_cases (x := s.nuL + e.nuL + (s.nuH + e.nuH) + (s.nuPre + e.nuPre)) (by omega) with ⟨u9, w⟩ | ⟨_, w⟩ <;>
      rw [Res.bind_ok, w] <;> [skip; rfl]
    rcases int32_cases (x := s.nugL + e.nugL) (by omega) with ⟨u10, w⟩ | ⟨_, w⟩ <;> rw [Res.bind_ok, w] <;> [skip; rfl]
    rcases int32_cases (x := s.nugH + e.nugH) (by omega) with ⟨u11, w⟩ | ⟨_, w⟩ <;> rw [Res.bind_ok, w] <;> [skip; rfl]
    rcases int32_cases (x := s.nugL + e.nugL + (s.nugH + e.nugH)) (by omega) with ⟨u12, w⟩ | ⟨_, w⟩ <;> rw [Res.bind_ok, w] <;> [skip; rfl]
    exact absurd (by omega) hno

/-- Two ranks. -/
theorem add32_eq {a b : Counts} (ha : CountsOk a) (hb : CountsOk b) :
    ((Counts.plus a b).AtMost 2147483647 → a.add32 b = .ok (Counts.plus a b)) ∧
    (¬ (Counts.plus a b).AtMost 2147483647 → a.add32 b = .ub) := by
  obtain ⟨h1, h2, h3, h4, h5, h6, h7, h8, h9, h10, h11⟩ := ha
  obtain ⟨g1, g2, g3, g4, g5, g6, g7, g8, g9, g10, g11⟩ := hb
  simp only [Counts.plus, Counts.AtMost]
  unfold Counts.add32
  constructor
  · rintro ⟨a1, a2, a3, a4, a5, a6, a7, a8, a9, a10, a11⟩
    fits32; fits32; fits32; fits32; fits32; fits32; fits32; fits32; fits32; fits32; fits32
    rfl
  · intro hno
    rcases int32_cases (x := a.aL + b.aL) (by omega) with ⟨u1, w⟩ | ⟨_, w⟩ <;> rw [w] <;> [skip; rfl]
    rcases int32_cases (x := a.zL + b.zL) (by omega) with ⟨u2, w⟩ | ⟨_, w⟩ <;> rw [Res.bind_ok, w] <;> [skip; rfl]
    rcases int32_cases (x := a.aH + b.aH) (by omega) with ⟨u3, w⟩ | ⟨_, w⟩ <;> rw [Res.bind_ok, w] <;> [skip; rfl]
    rcases int32_cases (x := a.zH + b.zH) (by omega) with ⟨u4, w⟩ | ⟨_, w⟩ <;> rw [Res.bind_ok, w] <;> [skip; rfl]
    rcases int32_cases (x := a.nuL + b.nuL) (by omega) with ⟨u5, w⟩ | ⟨_, w⟩ <;> rw [Res.bind_ok, w] <;> [skip; rfl]
    rcases int32_cases (x := a.nuH + b.nuH) (by omega) with ⟨u6, w⟩ | ⟨_, w⟩ <;> rw [Res.bind_ok, w] <;> [skip; rfl]
    rcases int32_cases (x := a.nuPre + b.nuPre) (by omega) with ⟨u7, w⟩ | ⟨_, w⟩ <;> rw [Res.bind_ok, w] <;> [skip; rfl]
    rcases int32_cases (x := a.nuTot + b.nuTot) (by omega) with ⟨u8, w⟩ | ⟨_, w⟩ <;> rw [Res.bind_ok, w] <;> [skip; rfl]
    rcases int32_cases (x := a.nugL + b.nugL) (by omega) with ⟨u9, w⟩ | ⟨_, w⟩ <;> rw [Res.bind_ok, w] <;> [skip; rfl]
    rcases int32_cases (x := a.nugH + b.nugH) (by omega) with ⟨u10, w⟩ | ⟨_, w⟩ <;> rw [Res.bind_ok, w] <;> [skip; rfl]
    rcases int32_cases (x := a.nugTot + b.nugTot) (by omega) with ⟨u11, w⟩ | ⟨_, w⟩ <;> rw [Res.bind_ok, w] <;> [skip; rfl]
    exact absurd ⟨u1, u2, u3, u4, u5, u6, u7, u8, u9, u10, u11⟩ hno

theorem plus_ok {a b : Counts} (ha : CountsOk a) (hb : CountsOk b) : CountsOk (Counts.plus a b) := by
  simp only [CountsOk, Counts.plus] at *
  omega

theorem plus_le {a b : Counts} {m : Int} (hb : CountsOk b) (h : (Counts.plus a b).AtMost m) : a.AtMost m := by
  simp only [CountsOk, Counts.plus, Counts.AtMost] at *
  omega

theorem plus_assoc (a b c : Counts) : Counts.plus (Counts.plus a b) c = Counts.plus a (Counts.plus b c) := by
  simp [Counts.plus, add_assoc]

theorem plus_nil (a : Counts) : Counts.plus a (totalsOf ([] : List (View K))) = a := by
  simp [Counts.plus, totalsOf]

theorem zero_plus' (a : Counts) : Counts.plus Counts.zero a = a := by
  simp [Counts.plus, Counts.zero]

/-- The events of a rank. -/
theorem recordAll32_eq : ∀ (evs : List (View K)) (s : Counts), CountsOk s → s.AtMost 2147483647 → (∀ e ∈ evs, Physical e) →
    ((Counts.plus s (totalsOf evs)).AtMost 2147483647 → recordAll32 s evs = .ok (Counts.plus s (totalsOf evs))) ∧
    (¬ (Counts.plus s (totalsOf evs)).AtMost 2147483647 → recordAll32 s evs = .ub)
  | [], s, _, hm, _ => by
      rw [plus_nil]
      exact ⟨fun _ => rfl, fun h => absurd hm h⟩
  | e :: es, s, hs, _, hp => by
      have he := hp e (by simp)
      have hes : ∀ x ∈ es, Physical x := fun x hx => hp x (List.mem_cons_of_mem _ hx)
      obtain ⟨r1, r2⟩ := record32_eq hs he
      have ho := plus_ok hs (totalsOf_ok (evs := [e]) (by simpa using he))
      rw [totalsOf_cons, ← plus_assoc]
      unfold recordAll32
      by_cases hm : (Counts.plus s (totalsOf [e])).AtMost 2147483647
      · rw [r1 hm]
        exact recordAll32_eq es _ ho hm hes
      · rw [r2 hm]
        exact ⟨fun h => absurd (plus_le (totalsOf_ok hes) h) hm, fun _ => rfl⟩

/-- All ranks. -/
theorem reduce32_eq : ∀ (ranks : List (List (View K))) (s : Counts), CountsOk s → s.AtMost 2147483647 →
    (∀ r ∈ ranks, ∀ e ∈ r, Physical e) →
    ((Counts.plus s (totalsOf ranks.flatten)).AtMost 2147483647 → reduce32 s ranks = .ok (Counts.plus s (totalsOf ranks.flatten))) ∧
    (¬ (Counts.plus s (totalsOf ranks.flatten)).AtMost 2147483647 → reduce32 s ranks = .ub)
  | [], s, _, hm, _ => by
      rw [List.flatten_nil, plus_nil]
      exact ⟨fun _ => rfl, fun h => absurd hm h⟩
  | r :: rs, s, hs, _, hp => by
      have hr := hp r (by simp)
      have hrs : ∀ x ∈ rs, ∀ e ∈ x, Physical e := fun x hx => hp x (List.mem_cons_of_mem _ hx)
      have z0 : CountsOk Counts.zero := by simp [CountsOk, Counts.zero]
      have zm : Counts.zero.AtMost 2147483647 := by simp [Counts.AtMost, Counts.zero]
      have hro := totalsOf_ok hr
      have hrso := totalsOf_ok (evs := rs.flatten) (by
        intro e he
        obtain ⟨x, hx, hex⟩ := List.mem_flatten.1 he
        exact hrs x hx e hex)
      obtain ⟨c1, c2⟩ := recordAll32_eq r _ z0 zm hr
      rw [zero_plus'] at c1 c2
      obtain ⟨d1, d2⟩ := add32_eq hs hro
      rw [List.flatten_cons, totalsOf_append, ← plus_assoc]
      unfold reduce32
      by_cases hc : (totalsOf r).AtMost 2147483647
      · rw [c1 hc]
        simp only [Res.bind]
        by_cases hd : (Counts.plus s (totalsOf r)).AtMost 2147483647
        · rw [d1 hd]
          exact reduce32_eq rs _ (plus_ok hs hro) hd hrs
        · rw [d2 hd]
          exact ⟨fun h => absurd (plus_le hrso h) hd, fun _ => rfl⟩
      · rw [c2 hc]
        refine ⟨fun h => absurd ?_ hc, fun _ => rfl⟩
        have := plus_le hrso h
        simp only [Counts.AtMost, Counts.plus, CountsOk] at *
        omega

/-- **C138.** The counters of a run, with every sum in 32 bits, are the totals over all events of all ranks exactly when each of these
totals is below `2^31`; otherwise a sum overflows, which is undefined. -/
theorem C138_iff (ranks : List (List (View K))) (n : Nat) (hlen : ∀ r ∈ ranks, r.length = n) (hp : ∀ r ∈ ranks, ∀ e ∈ r, Physical e)
    (hN : ((ranks.length * n : Nat) : Int) ≤ 2147483647) :
    ((totalsOf ranks.flatten).AtMost 2147483647 → counts32 ranks n = .ok (totalsOf ranks.flatten, (ranks.flatten.length : Int))) ∧
    (¬ (totalsOf ranks.flatten).AtMost 2147483647 → counts32 ranks n = .ub) := by
  obtain ⟨h1, h2⟩ := reduce32_eq ranks Counts.zero (by simp [CountsOk, Counts.zero]) (by simp [Counts.AtMost, Counts.zero]) hp
  rw [zero_plus'] at h1 h2
  unfold counts32
  constructor
  · intro h
    rw [h1 h]
    simp only [Res.bind]
    rw [int32_fits (by positivity) (by push_cast at hN; exact hN)]
    have : ranks.flatten.length = ranks.length * n := by
      rw [List.length_flatten, List.eq_replicate_of_mem (l := ranks.map List.length) (a := n) (by simpa using hlen)]
      simp
    rw [this]
    push_cast
    rfl
  · intro h
    rw [h2 h]
    rfl

theorem sum_le_mul {α : Type _} (l : List α) (f : α → Int) (m : Int) (h : ∀ x ∈ l, f x ≤ m) : (l.map f).sum ≤ m * l.length := by
  induction l with
  | nil => simp
  | cons a l ih =>
      have h1 := h a (by simp)
      have h2 := ih fun x hx => h x (List.mem_cons_of_mem _ hx)
      simp only [List.map_cons, List.sum_cons, List.length_cons]
      push_cast
      linarith

theorem mul_le_sum {α : Type _} (l : List α) (f : α → Int) (m : Int) (h : ∀ x ∈ l, m ≤ f x) : m * l.length ≤ (l.map f).sum := by
  induction l with
  | nil => simp
  | cons a l ih =>
      have h1 := h a (by simp)
      have h2 := ih fun x hx => h x (List.mem_cons_of_mem _ hx)
      simp only [List.map_cons, List.sum_cons, List.length_cons]
      push_cast
      linarith

theorem flatten_count {α : Type _} {ranks : List (List α)} {n : Nat} (hlen : ∀ r ∈ ranks, r.length = n) :
    ranks.flatten.length = ranks.length * n := by
  rw [List.length_flatten, List.eq_replicate_of_mem (l := ranks.map List.length) (a := n) (by simpa using hlen)]
  simp

/-- **C138, up to seven million events.** No counter overflows in a run of at most 7158278 events whose masses, charges and
multiplicities are at most 300: the counters are the totals, and they are divided by the number of events. -/
theorem C138_events_partial (ranks : List (List (View K))) (n : Nat) (hlen : ∀ r ∈ ranks, r.length = n)
    (hp : ∀ r ∈ ranks, ∀ e ∈ r, Physical e) (hN : ranks.length * n ≤ 7158278)
    (hb : ∀ r ∈ ranks, ∀ e ∈ r, e.aL ≤ 300 ∧ e.zL ≤ 300 ∧ e.aH ≤ 300 ∧ e.zH ≤ 300 ∧ e.nuL + e.nuH + e.nuPre ≤ 300 ∧ e.nugL + e.nugH ≤ 300) :
    counts32 ranks n = .ok (totalsOf ranks.flatten, (ranks.flatten.length : Int)) := by
  refine (C138_iff ranks n hlen hp (by omega)).1 ?_
  have hl := flatten_count hlen
  have hb' : ∀ e ∈ ranks.flatten, e.aL ≤ 300 ∧ e.zL ≤ 300 ∧ e.aH ≤ 300 ∧ e.zH ≤ 300 ∧ e.nuL + e.nuH + e.nuPre ≤ 300 ∧ e.nugL + e.nugH ≤ 300 := by
    intro e he
    obtain ⟨r, hr, he⟩ := List.mem_flatten.1 he
    exact hb r hr e he
  have hx : (300 : Int) * ranks.flatten.length ≤ 2147483647 := by rw [hl]; omega
  have key : ∀ f : View K → Int, (∀ e ∈ ranks.flatten, f e ≤ 300) → (ranks.flatten.map f).sum ≤ 2147483647 :=
    fun f hf => (sum_le_mul _ f 300 hf).trans hx
  refine ⟨key _ fun e he => (hb' e he).1, key _ fun e he => (hb' e he).2.1, key _ fun e he => (hb' e he).2.2.1,
    key _ fun e he => (hb' e he).2.2.2.1, key _ fun e he => ?_, key _ fun e he => ?_, key _ fun e he => ?_, key _ fun e he => ?_,
    key _ fun e he => ?_, key _ fun e he => ?_, key _ fun e he => ?_⟩ <;> (have := (hb' e he).2.2.2.2; push_cast; omega)

/-- **C138 is false of the code for longer runs.** Every run of 18354888 events or more whose heavy fragments have at least 117 nucleons
(half of the lightest fissioning nucleus of the input gate) overflows, on any number of ranks. -/
theorem C138_refuted (ranks : List (List (View K))) (n : Nat) (hlen : ∀ r ∈ ranks, r.length = n) (hp : ∀ r ∈ ranks, ∀ e ∈ r, Physical e)
    (hN : 18354888 ≤ ranks.length * n) (hh : ∀ r ∈ ranks, ∀ e ∈ r, 117 ≤ e.aH) : counts32 ranks n = .ub := by
  have hl := flatten_count hlen
  have hA : ¬ (totalsOf ranks.flatten).AtMost 2147483647 := by
    intro h
    have h3 := h.2.2.1
    have := mul_le_sum ranks.flatten (·.aH) 117 (by
      intro e he
      obtain ⟨r, hr, he⟩ := List.mem_flatten.1 he
      exact hh r hr e he)
    simp only [totalsOf] at h3
    rw [hl] at this
    omega
  obtain ⟨h1, h2⟩ := reduce32_eq ranks Counts.zero (by simp [CountsOk, Counts.zero]) (by simp [Counts.AtMost, Counts.zero]) hp
  rw [zero_plus'] at h2
  unfold counts32
  rw [h2 hA]
  rfl

/-- **The counters are those of the summary**: where nothing overflows they are the whole numbers that C10 divides. -/
theorem C138_summary [Field K] [LinearOrder K] (ranks : List (List (Content K))) :
    let s := Driver.reduce (ranks.map fun r => (r.map Content.view).foldl recordEvent Sums.zero)
    totalsOf (ranks.map fun r => r.map Content.view).flatten
      = ⟨s.aL, s.zL, s.aH, s.zH, s.nuL, s.nuH, s.nuPre, s.nuTot, s.nugL, s.nugH, s.nugTot⟩ := by
  have h := reduce_totals ranks
  have e : (ranks.map fun r => (r.map Content.view).foldl recordEvent Sums.zero) = ranks.map totals :=
    List.map_congr_left fun r _ => foldl_totals r
  simp only [e, h]
  rw [← List.map_flatten]
  generalize ranks.flatten = evs
  simp only [totalsOf, totals, List.map_map, Counts.mk.injEq]
  refine ⟨rfl, rfl, rfl, rfl, rfl, rfl, rfl, ?_, rfl, rfl, ?_⟩
  · rw [← List.sum_map_add, ← List.sum_map_add]
    congr 1
  · rw [← List.sum_map_add]
    congr 1

/-- **The seeds of a run**: the seed of every event is the first seed plus its number, as long as the last one fits; the next is
undefined. -/
theorem C138_seeds (start : Int) (h0 : 0 ≤ start) (np n ip i : Nat) (hip : ip < np) (hi : i < n) :
    (start + np * n ≤ 2147483648 → seed32 start n ip i = .ok (start + ip * n + i)) ∧
    (2147483647 < start + ip * n + i → seed32 start n ip i = .ub) := by
  have hle : (ip : Int) * n + i + 1 ≤ np * n := by
    have : ip * n + i + 1 ≤ np * n := by
      calc ip * n + i + 1 ≤ ip * n + n := by omega
        _ = (ip + 1) * n := by ring
        _ ≤ np * n := Nat.mul_le_mul_right _ hip
    exact_mod_cast this
  have hp0 : (0 : Int) ≤ (ip : Int) * n := by positivity
  have hi0 : (0 : Int) ≤ i := by positivity
  unfold seed32
  constructor
  · intro h
    rw [int32_fits hp0 (by linarith)]
    simp only [Res.bind]
    rw [int32_fits (by linarith) (by linarith)]
    simp only
    rw [int32_fits (by linarith) (by linarith)]
    congr 1
    ring
  · intro h
    rcases int32_cases hp0 with ⟨_, w⟩ | ⟨_, w⟩ <;> rw [w] <;> [skip; rfl]
    simp only [Res.bind]
    rcases int32_cases (x := (i : Int) + (ip : Int) * n) (by linarith) with ⟨_, w⟩ | ⟨_, w⟩ <;> rw [w]
    simp only
    exact int32_over (by linarith)

/-- An event of a run. -/
def c138Event : View ℚ := (⟨96, 38, 140, 54, 100, 70, 10, 12, 7, 8, [(1, 2)], [], [], [1], [1, 1]⟩ : Content ℚ).view

/-- Two ranks with two events each. -/
example : counts32 [[c138Event, c138Event], [c138Event, c138Event]] 2
    = .ok (⟨384, 152, 560, 216, 4, 0, 0, 4, 4, 8, 12⟩, 4) := by decide +kernel

theorem c138_physical : Physical c138Event := by
  unfold Physical; decide +kernel

/-- Two ranks with `m` events each: from eight million on the masses overflow, up to two million nothing does. -/
example (m : Nat) (h : 8000000 ≤ m) (h' : m ≤ 1000000000) : counts32 [List.replicate m c138Event, List.replicate m c138Event] m = .ub := by
  refine (C138_iff _ _ (by simp) ?_ (by simp; omega)).2 ?_
  · intro r hr e he
    simp only [List.mem_cons, List.not_mem_nil, or_false, or_self] at hr
    subst hr
    rw [List.eq_of_mem_replicate he]
    exact c138_physical
  · intro h
    have h3 := h.2.2.1
    have e : c138Event.aH = 140 := rfl
    simp only [totalsOf, List.flatten_cons, List.flatten_nil, List.append_nil, List.map_append, List.map_replicate, List.sum_append,
      List.sum_replicate, e, nsmul_eq_mul] at h3
    omega

example (m : Nat) (h : m ≤ 2000000) : counts32 [List.replicate m c138Event, List.replicate m c138Event] m
    = .ok (totalsOf [List.replicate m c138Event, List.replicate m c138Event].flatten,
      ([List.replicate m c138Event, List.replicate m c138Event].flatten.length : Int)) := by
  have one : ∀ r ∈ [List.replicate m c138Event, List.replicate m c138Event], ∀ e ∈ r, e = c138Event := by
    intro r hr e he
    simp only [List.mem_cons, List.not_mem_nil, or_false, or_self] at hr
    subst hr
    exact List.eq_of_mem_replicate he
  refine C138_events_partial _ _ (by simp) (fun r hr e he => ?_) (by simp; omega) (fun r hr e he => ?_)
  · rw [one r hr e he]; exact c138_physical
  · rw [one r hr e he]; decide +kernel

/-- The last seed that fits. -/
example : seed32 2147483640 4 1 3 = .ok 2147483647 ∧ seed32 2147483641 4 1 3 = .ub := by decide +kernel

end CGMF.Props
