import Verif.Model.MpSeq
import Mathlib.Tactic.Linarith
import Mathlib.Tactic.NormNum
import Mathlib.Tactic.Ring
import Mathlib.Tactic.FieldSimp
import Mathlib.Tactic.Positivity

/-!
# Sequences of motion plans and their display (C106)
-/

namespace Verif.MpSeq

noncomputable section

/-- A plan given by the client: the graph, the number of waypoints and the array. -/
structure Plan where
  sg : Nat
  n : Nat
  q : List ℝ

/-- The calls of the client: the plans are appended to a new sequence. -/
def build (cc : Nat → Nat) (ps : List Plan) : Option Seq :=
  ps.foldlM (fun s p => appendAll cc s p.sg p.n p.q) create

/-- The arrays contain the waypoints. -/
def Long (cc : Nat → Nat) (ps : List Plan) : Prop := ∀ p ∈ ps, cc p.sg * p.n ≤ p.q.length

/-- Variable `v` of waypoint `i`. -/
def Plan.at (cc : Nat → Nat) (p : Plan) (i v : Nat) : ℝ := p.q.getD (i * cc p.sg + v) 0

/-- The number of waypoints. -/
def total (ps : List Plan) : Nat := (ps.map Plan.n).sum

/-- Waypoint `k` of all is waypoint `i` of plan `p`. -/
def IsWaypoint (ps : List Plan) (k : Nat) (p : Plan) (i : Nat) : Prop :=
  ∃ before after, ps = before ++ p :: after ∧ k = total before + i ∧ i < p.n

/-- What is to be seen after the time of `u` waypoints: between waypoint `⌊u⌋` and the next one of the same
plan, or at the last one of the plan. -/
def Shows (cc : Nat → Nat) (ps : List Plan) (u : ℝ) (sg : Nat) (q : List ℝ) : Prop :=
  ∃ p i, IsWaypoint ps ⌊u⌋₊ p i ∧ sg = p.sg ∧ q.length = cc p.sg ∧ ∀ v, v < cc p.sg →
    q.getD v 0 = if i + 1 < p.n then
      (1 - (u - ⌊u⌋₊)) * p.at cc i v + (u - ⌊u⌋₊) * p.at cc (i + 1) v else p.at cc i v

/-! ## Lemmas -/

def Plan.elt (cc : Nat → Nat) (p : Plan) : Elt := ⟨p.q.take (cc p.sg * p.n), p.n, p.sg⟩

theorem foldlM_append (cc : Nat → Nat) (ps : List Plan) (s : Seq) (h : Long cc ps) :
    ps.foldlM (fun s p => appendAll cc s p.sg p.n p.q) s =
      some ⟨s.data ++ ps.map (Plan.elt cc), s.nPoints + total ps⟩ := by
  induction ps generalizing s with
  | nil => simp [total]
  | cons p ps ih =>
    have hp := h p (by simp)
    have e : appendAll cc s p.sg p.n p.q = some ⟨s.data ++ [p.elt cc], s.nPoints + p.n⟩ := by
      rw [appendAll, if_neg (by omega)]; rfl
    rw [List.foldlM_cons, e]
    refine (ih _ fun p' hp' => h p' (by simp [hp'])).trans ?_
    simp [total, Nat.add_assoc]

theorem build_eq {cc : Nat → Nat} {ps : List Plan} (h : Long cc ps) :
    build cc ps = some ⟨ps.map (Plan.elt cc), total ps⟩ := by
  rw [build, foldlM_append cc ps _ h]; simp [create]

theorem locate_spec (cc : Nat → Nat) (ps : List Plan) (k off : Nat) (cur : Option Elt)
    (h0 : off ≤ k) (h1 : k < off + total ps) :
    ∃ before p after, ps = before ++ p :: after ∧ k - off - total before < p.n ∧ off + total before ≤ k ∧
      locate k (ps.map (Plan.elt cc)) cur off = (some (p.elt cc), off + total before) := by
  induction ps generalizing off cur with
  | nil => simp [total] at h1; omega
  | cons p ps ih =>
    rw [List.map_cons, locate]
    have hn : (p.elt cc).nPoints = p.n := rfl
    rw [hn]
    have ht : total (p :: ps) = p.n + total ps := by simp [total]
    split
    · exact ⟨[], p, ps, rfl, by simp [total]; omega, by simp [total]; omega, by simp [total]⟩
    · obtain ⟨b, p', a, e1, e2, e3, e4⟩ := ih (off + p.n) (some (p.elt cc)) (by omega) (by omega)
      have ht' : total (p :: b) = p.n + total b := by simp [total]
      refine ⟨p :: b, p', a, by rw [e1]; rfl, by omega, by omega, ?_⟩
      rw [e4, ht', Nat.add_assoc]

theorem col_elt {cc : Nat → Nat} {p : Plan} (h : cc p.sg * p.n ≤ p.q.length) {i : Nat} (hi : i < p.n) :
    ∃ l, col (p.elt cc).path (cc p.sg) i = some l ∧ l.length = cc p.sg ∧
      ∀ v, v < cc p.sg → l.getD v 0 = p.at cc i v := by
  have hl : (p.elt cc).path.length = cc p.sg * p.n := by simp [Plan.elt]; omega
  have hle : (i + 1) * cc p.sg ≤ cc p.sg * p.n := by rw [Nat.mul_comm]; exact Nat.mul_le_mul_left _ hi
  have h2 : i * cc p.sg + cc p.sg = (i + 1) * cc p.sg := by ring
  refine ⟨_, by rw [col, if_pos (by omega)], ?_, fun v hv => ?_⟩
  · simp [hl]; omega
  · have hv2 : i * cc p.sg + v < cc p.sg * p.n := by omega
    simp only [List.getD_eq_getElem?_getD, Plan.at, Plan.elt]
    rw [List.getElem?_take_of_lt hv, List.getElem?_drop, List.getElem?_take_of_lt hv2]

theorem plan1 {cc : Nat → Nat} {p : Plan} (h : cc p.sg * p.n ≤ p.q.length) (hm : 0 < cc p.sg) {t : ℝ}
    {off : Nat} (h0 : off ≤ ⌊t / dt⌋₊) (h1 : ⌊t / dt⌋₊ - off < p.n) :
    ∃ q, planDisplay1 cc t (some (p.elt cc).sg) (p.elt cc).nPoints (some (p.elt cc).path) off = some (p.sg, q) ∧
      q.length = cc p.sg ∧ ∀ v, v < cc p.sg → q.getD v 0 =
        if ⌊t / dt⌋₊ - off + 1 < p.n then
          (1 - (t / dt - ⌊t / dt⌋₊)) * p.at cc (⌊t / dt⌋₊ - off) v +
            (t / dt - ⌊t / dt⌋₊) * p.at cc (⌊t / dt⌋₊ - off + 1) v
        else p.at cc (⌊t / dt⌋₊ - off) v := by
  set k := ⌊t / dt⌋₊ with hk
  have hd : (0:ℝ) < dt := by norm_num [dt]
  obtain ⟨l0, e0, n0, v0⟩ := col_elt h h1
  have hsg : (p.elt cc).sg = p.sg := rfl
  have hn : (p.elt cc).nPoints = p.n := rfl
  simp only [planDisplay1]
  rw [← hk, if_neg (by omega), hn, hsg]
  by_cases hl : p.n = k - off + 1
  · rw [if_pos hl, if_neg (by omega), if_neg (by omega), e0]
    simp only [if_true]
    exact ⟨l0, rfl, n0, fun v hv => by rw [if_neg (by omega)]; exact v0 v hv⟩
  · have h2 : k - off + 1 < p.n := by omega
    obtain ⟨l1, e1, n1, v1⟩ := col_elt h h2
    rw [if_neg hl, if_neg (by omega), if_neg (by omega), e0, e1]
    simp only
    rw [if_neg (by omega)]
    refine ⟨_, rfl, by simp [linterp, n0, n1], fun v hv => ?_⟩
    rw [if_pos h2]
    have a0 : l0[v]? = some (p.at cc (k - off) v) := by
      rw [← v0 v hv, List.getElem?_eq_getElem (by omega)]; simp [List.getD_eq_getElem?_getD, n0, hv]
    have a1 : l1[v]? = some (p.at cc (k - off + 1) v) := by
      rw [← v1 v hv, List.getElem?_eq_getElem (by omega)]; simp [List.getD_eq_getElem?_getD, n1, hv]
    rw [List.getD_eq_getElem?_getD, linterp, List.getElem?_zipWith, a0, a1]
    simp only [Option.getD_some]
    have c1 : ((k - off : ℕ) : ℝ) = (k : ℝ) - off := by rw [Nat.cast_sub h0]
    have c2 : (t - dt * off - ((k - off : ℕ) : ℝ) * dt) / (((k - off + 1 : ℕ) : ℝ) * dt - ((k - off : ℕ) : ℝ) * dt)
        = t / dt - k := by
      rw [Nat.cast_add, c1]; push_cast; field_simp; ring
    rw [c2]; ring

/-! ## C106 -/

/-- **C106 (sequence).** Appending the plans succeeds; the counts are those of the plans and of all waypoints;
element `i` has the graph, the number of waypoints and the waypoints of plan `i`, and there is none after the
last. -/
theorem C106_sequence (cc : Nat → Nat) (ps : List Plan) (h : Long cc ps) :
    ∃ s, build cc ps = some s ∧ count s = ps.length ∧ pointCount s = total ps ∧
      (∀ i, ps.length ≤ i → elt s i = (none, 0, none)) ∧
      ∀ i p, ps[i]? = some p → ∃ path, elt s i = (some p.sg, p.n, some path) ∧
        path.length = cc p.sg * p.n ∧ ∀ j v, j < p.n → v < cc p.sg → path.getD (j * cc p.sg + v) 0 = p.at cc j v := by
  refine ⟨_, build_eq h, by simp [count], rfl, fun i hi => ?_, fun i p hp => ?_⟩
  · simp only [elt]
    rw [List.getElem?_eq_none (by simpa using hi)]
  · have hm := h p (List.mem_of_getElem? hp)
    refine ⟨p.q.take (cc p.sg * p.n), by simp [elt, hp, Plan.elt], by simp [hm], fun j v hj hv => ?_⟩
    have : j * cc p.sg + v < cc p.sg * p.n := by
      have : (j + 1) * cc p.sg ≤ cc p.sg * p.n := by rw [Nat.mul_comm]; exact Nat.mul_le_mul_left _ hj
      have h2 : j * cc p.sg + cc p.sg = (j + 1) * cc p.sg := by ring
      omega
    rw [Plan.at, List.getD_eq_getElem?_getD, List.getD_eq_getElem?_getD, List.getElem?_take_of_lt this]

/-- **C106 (display).** At a time before the end of a pass that began at `t0`, a frame shows the point of the
path for that time, and the pass goes on. -/
theorem C106_display_partial (cc : Nat → Nat) (ps : List Plan) (h : Long cc ps) (hm : ∀ p ∈ ps, 0 < cc p.sg)
    (t0 now : ℝ) (h0 : t0 ≤ now) (h1 : now < t0 + total ps * dt) :
    ∃ s sg q, build cc ps = some s ∧ display cc s t0 now = some (t0, sg, q) ∧
      Shows cc ps ((now - t0) / dt) sg q := by
  have hd : (0:ℝ) < dt := by norm_num [dt]
  have hu : 0 ≤ (now - t0) / dt := div_nonneg (by linarith) hd.le
  have hk : ⌊(now - t0) / dt⌋₊ < total ps := by
    rw [Nat.floor_lt hu, div_lt_iff₀ hd]; linarith
  obtain ⟨b, p, a, e1, e2, e3, e4⟩ := locate_spec cc ps ⌊(now - t0) / dt⌋₊ 0 none (Nat.zero_le _) (by omega)
  have hp : p ∈ ps := by rw [e1]; simp
  obtain ⟨q, f1, f2, f3⟩ := plan1 (h p hp) (hm p hp) (t := now - t0) (off := total b)
    (by omega) (by omega)
  refine ⟨_, p.sg, q, build_eq h, ?_, p, ⌊(now - t0) / dt⌋₊ - total b, ⟨b, a, e1, by omega, by omega⟩, rfl, f2, f3⟩
  simp only [display]
  rw [if_neg (by linarith), if_neg (by simp only [pointCount]; omega), e4]
  simp only [Option.map_some, Option.elim_some, Nat.zero_add]
  rw [f1]; rfl

/-- **C106 (restart).** At the end of a pass the next one begins, with the first waypoint, if the first plan has
one. -/
theorem C106_restart_partial (cc : Nat → Nat) (ps : List Plan) (h : Long cc ps) (hm : ∀ p ∈ ps, 0 < cc p.sg)
    (p : Plan) (hp : ps.head? = some p) (hn : 0 < p.n)
    (t0 now : ℝ) (h0 : t0 ≤ now) (h1 : t0 + total ps * dt ≤ now) :
    ∃ s sg q, build cc ps = some s ∧ display cc s t0 now = some (now, sg, q) ∧ Shows cc ps 0 sg q := by
  have hd : (0:ℝ) < dt := by norm_num [dt]
  have hu : 0 ≤ (now - t0) / dt := div_nonneg (by linarith) hd.le
  have hk : total ps ≤ ⌊(now - t0) / dt⌋₊ := by
    rw [Nat.le_floor_iff hu, le_div_iff₀ hd]; linarith
  obtain ⟨ps', rfl⟩ : ∃ ps', ps = p :: ps' := by
    cases ps with
    | nil => cases hp
    | cons a l => simp at hp; exact ⟨l, by rw [hp]⟩
  obtain ⟨q, f1, f2, f3⟩ := plan1 (h p (by simp)) (hm p (by simp)) (t := now - now) (off := 0)
    (by simp) (by simpa using hn)
  refine ⟨_, p.sg, q, build_eq h, ?_, p, 0, ⟨[], ps', rfl, by simp [total], hn⟩, rfl, f2, ?_⟩
  · simp only [display]
    rw [if_neg (by linarith), if_pos (by simp only [pointCount]; omega)]
    simp only [elt, List.map_cons, List.getElem?_cons_zero]
    rw [f1]; rfl
  · intro v hv
    have := f3 v hv
    simpa using this

/-- **C106 (frames).** The display goes on for ever: with frames at times that do not decrease no frame is
undefined, and the pass never begins in the future. -/
theorem C106_frames_partial (cc : Nat → Nat) (ps : List Plan) (h : Long cc ps) (hm : ∀ p ∈ ps, 0 < cc p.sg)
    (p : Plan) (hp : ps.head? = some p) (hn : 0 < p.n) (times : Nat → ℝ) (hmono : Monotone times)
    (t0 : ℝ) (h0 : t0 ≤ times 0) :
    ∃ (s : Seq) (starts : Nat → ℝ), build cc ps = some s ∧ starts 0 = t0 ∧ ∀ k : Nat, starts k ≤ times k ∧
      ∃ r, display cc s (starts k) (times k) = some (starts (k + 1), r) := by
  obtain ⟨s, hs⟩ : ∃ s, build cc ps = some s := ⟨_, build_eq h⟩
  have step : ∀ a b : ℝ, a ≤ b → ∃ c r, c ≤ b ∧ display cc s a b = some (c, r) := by
    intro a b hab
    rcases lt_or_ge b (a + total ps * dt) with hl | hl
    · obtain ⟨s', sg, q, e1, e2, -⟩ := C106_display_partial cc ps h hm a b hab hl
      rw [hs] at e1; cases e1
      exact ⟨a, (sg, q), hab, e2⟩
    · obtain ⟨s', sg, q, e1, e2, -⟩ := C106_restart_partial cc ps h hm p hp hn a b hab hl
      rw [hs] at e1; cases e1
      exact ⟨b, (sg, q), le_refl b, e2⟩
  let nxt : Nat → ℝ → ℝ := fun k a => ((display cc s a (times k)).map Prod.fst).getD 0
  let starts : Nat → ℝ := fun k => Nat.rec t0 nxt k
  have inv : ∀ k, starts k ≤ times k := by
    intro k
    induction k with
    | zero => exact h0
    | succ k ih =>
      obtain ⟨c, r, hc, e⟩ := step _ _ ih
      have : starts (k + 1) = c := by
        show nxt k (starts k) = c
        simp [nxt, e]
      rw [this]; exact hc.trans (hmono (Nat.le_succ k))
  refine ⟨s, starts, hs, rfl, fun k => ⟨inv k, ?_⟩⟩
  obtain ⟨c, r, hc, e⟩ := step _ _ (inv k)
  refine ⟨r, ?_⟩
  have : starts (k + 1) = c := by
    show nxt k (starts k) = c
    simp [nxt, e]
  rw [this, e]

/-- **C106 fails** for a sequence without plans: the first frame is undefined. -/
theorem C106_violates_empty (cc : Nat → Nat) (t0 now : ℝ) (s : Seq) (h : build cc [] = some s) :
    display cc s t0 now = none := by
  have e : build cc [] = some ⟨[], 0⟩ := build_eq (ps := []) (fun p hp => by simp at hp)
  rw [e] at h; cases h
  simp [display, pointCount, elt, planDisplay1]

/-- **C106 fails** when the first plan has no waypoints: the frame after the end of a pass is undefined, though
there are waypoints. -/
theorem C106_violates_first_plan (cc : Nat → Nat) (ps : List Plan) (h : Long cc ps) (p : Plan)
    (hp : ps.head? = some p) (hn : p.n = 0) (t0 now : ℝ) (h0 : t0 ≤ now) (h1 : t0 + total ps * dt ≤ now)
    (s : Seq) (hs : build cc ps = some s) : display cc s t0 now = none := by
  have hd : (0:ℝ) < dt := by norm_num [dt]
  have hu : 0 ≤ (now - t0) / dt := div_nonneg (by linarith) hd.le
  have hk : total ps ≤ ⌊(now - t0) / dt⌋₊ := by
    rw [Nat.le_floor_iff hu, le_div_iff₀ hd]; linarith
  obtain ⟨ps', rfl⟩ : ∃ ps', ps = p :: ps' := by
    cases ps with
    | nil => cases hp
    | cons a l => simp at hp; exact ⟨l, by rw [hp]⟩
  rw [build_eq h] at hs; cases hs
  simp only [display]
  rw [if_neg (by linarith), if_pos (by simp only [pointCount]; omega)]
  simp [elt, Plan.elt, planDisplay1, hn]

/-- **C106 fails** for a graph without configuration variables: no frame is defined. -/
theorem C106_violates_no_variables (cc : Nat → Nat) (p : Plan) (hc : cc p.sg = 0) (t0 now : ℝ) (s : Seq)
    (hs : build cc [p] = some s) : display cc s t0 now = none := by
  have h : Long cc [p] := by intro p' hp'; simp at hp'; subst hp'; simp [hc]
  rw [build_eq h] at hs; cases hs
  have key : ∀ t n off, planDisplay1 cc t (some p.sg) n (some (p.elt cc).path) off = none := by
    intro t n off
    simp only [planDisplay1, hc]
    split
    · rfl
    · rw [if_pos trivial, ite_self]
  simp only [display]
  split
  · rfl
  · split
    · simp only [elt, List.map_cons, List.getElem?_cons_zero]
      rw [show (p.elt cc).sg = p.sg from rfl, key]; rfl
    · simp only [List.map_cons, List.map_nil, locate]
      split <;> simp only [Option.map_some] <;> rw [show (p.elt cc).sg = p.sg from rfl, key] <;> rfl

/-- **C106 fails** for a window that runs already: the pass begins at the zero of the clock and not when the
sequence is given, so that the first frame shows the second waypoint when the clock reads that time. -/
theorem C106_violates_start : ∃ (cc : Nat → Nat) (ps : List Plan) (s : Seq) (now : ℝ), Long cc ps ∧
    (∀ p ∈ ps, 0 < cc p.sg ∧ 0 < p.n) ∧ build cc ps = some s ∧
    display cc s initialT0 now = some (initialT0, 0, [7]) ∧ ¬ Shows cc ps 0 0 [7] := by
  have hl : Long (fun _ => 1) [(⟨0, 2, [5, 7]⟩ : Plan)] := by intro p hp; simp at hp; subst hp; simp
  have hf : ⌊((4:ℝ) / 5 - 0) / dt⌋₊ = 1 := by
    rw [show ((4:ℝ) / 5 - 0) / dt = (1 : ℕ) by norm_num [dt], Nat.floor_natCast]
  refine ⟨fun _ => 1, [⟨0, 2, [5, 7]⟩], _, 4 / 5, hl, ?_, build_eq hl, ?_, ?_⟩
  · intro p hp; simp at hp; subst hp; simp
  · simp only [display, initialT0, hf]
    rw [if_neg (by norm_num), if_neg (by simp [pointCount, total])]
    simp [locate, Plan.elt, planDisplay1, col]
    norm_num [dt]
  · rintro ⟨p, i, ⟨b, a, e1, e2, e3⟩, -, -, h⟩
    obtain ⟨rfl, rfl, rfl⟩ : b = [] ∧ p = ⟨0, 2, [5, 7]⟩ ∧ a = [] := by
      cases b with
      | nil => simp at e1; exact ⟨rfl, e1.1.symm, e1.2⟩
      | cons c b => simp at e1
    have : i = 0 := by simp [total] at e2; omega
    subst this
    have := h 0 (by norm_num)
    norm_num [Plan.at] at this

/-- **C106 fails** for memory: destroying a sequence with plans does not release all of its blocks. -/
theorem C106_violates_leak (s : Seq) (h : 0 < count s) : destroy s < blocks s := by
  simp only [destroy, blocks, count] at *; omega

/-- Two plans on graphs with two and one variables. -/
def samplePlans : List Plan := [⟨0, 2, [0, 0, 10, 20]⟩, ⟨1, 1, [3]⟩]

example : Long (fun g => if g = 0 then 2 else 1) samplePlans := by
  intro p hp; simp [samplePlans] at hp; rcases hp with rfl | rfl <;> simp

example : Shows (fun g => if g = 0 then 2 else 1) samplePlans (1 / 2) 0 [5, 10] := by
  have hf : ⌊(1 / 2 : ℝ)⌋₊ = 0 := by rw [Nat.floor_eq_zero]; norm_num
  refine ⟨⟨0, 2, [0, 0, 10, 20]⟩, 0, ⟨[], _, rfl, by rw [hf]; rfl, by norm_num⟩, rfl, rfl, fun v hv => ?_⟩
  have : v = 0 ∨ v = 1 := by simp at hv; omega
  rw [hf]
  rcases this with rfl | rfl <;> norm_num [Plan.at]

end

end Verif.MpSeq
