import Verif.Model.SgLimUse
import Verif.Prop.SgLim
import Verif.Prop.Stat

/-!
# C81: configurations and limit records made from the limits of a scene graph
-/

namespace Verif.Sg

open Verif.Scalar

variable {P : Type}

/-! ## Specification -/

/-- A value that the limits allow; `none` is "no limit". -/
def Allowed (l : Option (ℝ × ℝ)) (x : ℝ) : Prop := ∀ lo hi, l = some (lo, hi) → lo ≤ x ∧ x ≤ hi

/-- Limits that allow some value. -/
def Sound (l : Option (ℝ × ℝ)) : Prop := ∀ lo hi, l = some (lo, hi) → lo ≤ hi

theorem fillLoop_eq {f : Nat → Option ℝ} {v : Nat → ℝ} {inc : Nat} (hinc : 0 < inc) (n i : Nat)
    (q : Nat → ℝ) (h : ∀ j, i ≤ j → j < i + n → f j = some (v j)) :
    ∃ q', fillLoop f inc n i q = some q' ∧ (∀ j, i ≤ j → j < i + n → q' (j * inc) = v j) ∧
      ∀ a, (∀ j, i ≤ j → j < i + n → a ≠ j * inc) → q' a = q a := by
  induction n generalizing i q with
  | zero => exact ⟨q, rfl, fun j h1 h2 => by omega, fun _ _ => rfl⟩
  | succ n ih =>
    unfold fillLoop
    rw [h i le_rfl (by omega)]
    obtain ⟨q', h1, h2, h3⟩ := ih (i + 1) (Function.update q (i * inc) (v i))
      (fun j hj hj' => h j (by omega) (by omega))
    refine ⟨q', h1, fun j hj hj' => ?_, fun a ha => ?_⟩
    · by_cases hij : j = i
      · subst hij
        rw [h3 _ (fun k hk _ he => ?_), Function.update_self]
        have := Nat.eq_of_mul_eq_mul_right hinc he
        omega
      · exact h2 j (by omega) (by omega)
    · rw [h3 a (fun k hk hk' => ha k (by omega) (by omega)), Function.update_of_ne]
      exact ha i le_rfl (by omega)

theorem configCenter_eq {s : LGraph P ℝ} {id : Int} {l : Option (ℝ × ℝ)}
    (h : getLimit s .pos id = some l) :
    ∃ x, configCenter s id = some x ∧ (l = none → x = 0) ∧
      (∀ lo hi, l = some (lo, hi) → x - lo = hi - x) ∧ (Sound l → Allowed l x) := by
  unfold configCenter
  rw [h]
  cases l with
  | none => exact ⟨0, rfl, fun _ => rfl, by simp, fun _ _ _ h => by simp at h⟩
  | some p =>
    obtain ⟨lo, hi⟩ := p
    refine ⟨(hi + lo) / 2, rfl, by simp, ?_, ?_⟩
    · intro a b hab
      simp only [Option.some.injEq, Prod.mk.injEq] at hab
      obtain ⟨rfl, rfl⟩ := hab
      ring
    · intro hs a b hab
      have := hs a b hab
      simp only [Option.some.injEq, Prod.mk.injEq] at hab
      obtain ⟨rfl, rfl⟩ := hab
      constructor <;> linarith

/-- **C81**, `aa_rx_sg_center_configs`: the first elements, as many as there are configurations and
room, are the midpoints of the limits (zero without limits), lie within the limits, and nothing
else is written. -/
theorem C81_center (s : LGraph P ℝ) (nq n : Nat) (q : Nat → ℝ) (L : Nat → Option (ℝ × ℝ))
    (hn : configCount s.g = some nq) (hL : ∀ i : Nat, i < nq → getLimit s .pos i = some (L i)) :
    ∃ q', centerConfigs s n q = some q' ∧
      (∀ i, i < n → i < nq → (L i = none → q' i = 0) ∧
        (∀ lo hi, L i = some (lo, hi) → q' i - lo = hi - q' i) ∧ (Sound (L i) → Allowed (L i) (q' i))) ∧
      (∀ i, ¬ (i < n ∧ i < nq) → q' i = q i) := by
  have hx : ∀ i : Nat, ∃ x, i < nq → configCenter s i = some x ∧ (L i = none → x = 0) ∧
      (∀ lo hi, L i = some (lo, hi) → x - lo = hi - x) ∧ (Sound (L i) → Allowed (L i) x) := by
    intro i
    by_cases hi : i < nq
    · obtain ⟨x, hx⟩ := configCenter_eq (hL i hi)
      exact ⟨x, fun _ => hx⟩
    · exact ⟨0, fun h => absurd h hi⟩
  choose v hv using hx
  obtain ⟨q', h1, h2, h3⟩ := fillLoop_eq (f := fun i => configCenter s i) (v := v) (inc := 1) one_pos
    (min n nq) 0 q (fun j _ hj => (hv j (by omega)).1)
  refine ⟨q', ?_, fun i hi hi' => ?_, fun i hi => ?_⟩
  · unfold centerConfigs; rw [hn]; exact h1
  · have := h2 i (by omega) (by omega)
    rw [mul_one] at this
    rw [this]
    exact (hv i hi').2
  · exact h3 i (fun j _ hj he => hi ⟨by omega, by omega⟩)

/-- **C81**, `aa_rx_sg_sub_center_configv`: likewise for the configurations of a sub-scenegraph and
every positive increment. -/
theorem C81_sub_center (s : LGraph P ℝ) (sub : Sub) (inc : Nat) (hinc : 0 < inc) (q : Nat → ℝ)
    (L : Nat → Option (ℝ × ℝ))
    (hL : ∀ i : Nat, i < sub.configCount → getLimit s .pos (sub.configs i) = some (L i)) :
    ∃ q', subCenter s sub sub.configCount inc q = some q' ∧
      (∀ i, i < sub.configCount → (L i = none → q' (i * inc) = 0) ∧
        (∀ lo hi, L i = some (lo, hi) → q' (i * inc) - lo = hi - q' (i * inc)) ∧
        (Sound (L i) → Allowed (L i) (q' (i * inc)))) ∧
      (∀ a, (∀ i, i < sub.configCount → a ≠ i * inc) → q' a = q a) := by
  have hx : ∀ i : Nat, ∃ x, i < sub.configCount → configCenter s (sub.configs i) = some x ∧
      (L i = none → x = 0) ∧
      (∀ lo hi, L i = some (lo, hi) → x - lo = hi - x) ∧ (Sound (L i) → Allowed (L i) x) := by
    intro i
    by_cases hi : i < sub.configCount
    · obtain ⟨x, hx⟩ := configCenter_eq (hL i hi)
      exact ⟨x, fun _ => hx⟩
    · exact ⟨0, fun h => absurd h hi⟩
  choose v hv using hx
  obtain ⟨q', h1, h2, h3⟩ := fillLoop_eq (f := fun i => configCenter s (sub.configs i)) (v := v) hinc
    sub.configCount 0 q (fun j _ hj => (hv j (by omega)).1)
  refine ⟨q', ?_, fun i hi => ?_, fun a ha => ?_⟩
  · unfold subCenter; rw [if_neg (by simp)]; exact h1
  · rw [h2 i (by omega) (by omega)]
    exact (hv i hi).2
  · exact h3 a (fun j _ hj => ha j (by omega))

/-- **C81**, `aa_rx_sg_sub_rand_config`: whatever the random numbers, every element lies within the
limits of its configuration, or within ±π without limits. -/
theorem C81_rand (s : LGraph P ℝ) (sub : Sub) (rs : Nat → Nat) (M : Nat) (hM : 0 < M)
    (hrs : ∀ i, rs i ≤ M) (inc : Nat) (hinc : 0 < inc) (q : Nat → ℝ) (L : Nat → Option (ℝ × ℝ))
    (hL : ∀ i : Nat, i < sub.configCount → getLimit s .pos (sub.configs i) = some (L i))
    (hS : ∀ i : Nat, i < sub.configCount → Sound (L i)) :
    ∃ q', subRand s sub rs M sub.configCount inc q = some q' ∧
      (∀ i, i < sub.configCount → Allowed (L i) (q' (i * inc)) ∧
        (L i = none → |q' (i * inc)| ≤ Real.pi)) ∧
      (∀ a, (∀ i, i < sub.configCount → a ≠ i * inc) → q' a = q a) := by
  have hx : ∀ i : Nat, ∃ x, i < sub.configCount →
      randElt s (sub.configs i) (rs i) M = some x ∧ Allowed (L i) x ∧ (L i = none → |x| ≤ Real.pi) := by
    intro i
    by_cases hi : i < sub.configCount
    · unfold randElt
      have hl := hL i hi
      have hs := hS i hi
      rw [hl]
      cases hLi : L i with
      | none =>
        obtain ⟨h1, h2, -⟩ := C75_frand (rs i) M hM (hrs i) (-Real.pi) Real.pi
          (by linarith [Real.pi_pos])
        exact ⟨_, fun _ => ⟨rfl, fun _ _ h => by simp at h, fun _ => abs_le.2 ⟨h1, h2⟩⟩⟩
      | some p =>
        obtain ⟨lo, hi'⟩ := p
        obtain ⟨h1, h2, -⟩ := C75_frand (rs i) M hM (hrs i) lo hi' (hs lo hi' hLi)
        refine ⟨_, fun _ => ⟨rfl, fun a b hab => ?_, by simp⟩⟩
        simp only [Option.some.injEq, Prod.mk.injEq] at hab
        obtain ⟨rfl, rfl⟩ := hab
        exact ⟨h1, h2⟩
    · exact ⟨0, fun h => absurd h hi⟩
  choose v hv using hx
  obtain ⟨q', h1, h2, h3⟩ := fillLoop_eq (f := fun i => randElt s (sub.configs i) (rs i) M) (v := v)
    hinc sub.configCount 0 q (fun j _ hj => (hv j (by omega)).1)
  refine ⟨q', ?_, fun i hi => ?_, fun a ha => ?_⟩
  · unfold subRand; rw [if_neg (by simp)]; exact h1
  · rw [h2 i (by omega) (by omega)]
    exact (hv i hi).2
  · exact h3 a (fun j _ hj => ha j (by omega))

/-- **C81**, `aa_rx_ct_limits`: for every kind and configuration the record admits a value exactly
when the limits of the scene graph do. -/
theorem C81_ct_limits (s : LGraph P ℝ) (k : LimKind) (i : Nat) (l : Option (ℝ × ℝ))
    (hl : getLimit s k i = some l) :
    ∃ r, ctLimits s k i = some r ∧ ∀ x : ℝ, (r.1 ≤ x ∧ (x : EReal) ≤ r.2) ↔ Allowed l x := by
  unfold ctLimits
  rw [hl]
  cases l with
  | none => exact ⟨_, rfl, fun x => by simp [Allowed]⟩
  | some p =>
    obtain ⟨lo, hi⟩ := p
    refine ⟨_, rfl, fun x => ?_⟩
    simp only [EReal.coe_le_coe_iff, Allowed, Option.some.injEq, Prod.mk.injEq]
    constructor
    · rintro h a b ⟨rfl, rfl⟩; exact h
    · intro h; exact h lo hi ⟨rfl, rfl⟩

/-- **C81**, `aa_rx_ct_sg_limits`: the same where a limit has been set.  Missing: configurations
without a limit (`C81_violates_ct_sg_limits`). -/
theorem C81_ct_sg_limits_partial (s : LGraph P ℝ) (junk : Nat → EReal × EReal) (k : LimKind) (i : Nat)
    (lo hi : ℝ) (hl : getLimit s k i = some (some (lo, hi))) :
    ∃ r, ctSgLimits s junk k i = some r ∧
      ∀ x : ℝ, (r.1 ≤ x ∧ (x : EReal) ≤ r.2) ↔ Allowed (some (lo, hi)) x := by
  unfold ctSgLimits
  rw [hl]
  refine ⟨_, rfl, fun x => ?_⟩
  simp only [EReal.coe_le_coe_iff, Allowed, Option.some.injEq, Prod.mk.injEq]
  constructor
  · rintro h a b ⟨rfl, rfl⟩; exact h
  · intro h; exact h lo hi ⟨rfl, rfl⟩

/-- **C81**, the gains of `aa_rx_ik_parm_center_configs`: a configuration with limits gets the gain in
inverse proportion to its range (the given gain for a range of 2π), one without limits gets zero. -/
theorem C81_gain (s : LGraph P ℝ) (gain : ℝ) (id : Int) (l : Option (ℝ × ℝ))
    (hl : getLimit s .pos id = some l) (hne : ∀ lo hi, l = some (lo, hi) → lo < hi) :
    ∃ x, centerGain s gain id = some x ∧ (l = none → x = 0) ∧
      ∀ lo hi, l = some (lo, hi) → x * (hi - lo) = gain * (2 * Real.pi) := by
  unfold centerGain
  rw [hl]
  cases l with
  | none => exact ⟨0, rfl, fun _ => rfl, by simp⟩
  | some p =>
    obtain ⟨lo, hi⟩ := p
    have h := hne lo hi rfl
    have h0 : hi - lo ≠ 0 := by linarith
    simp only [h0, if_false]
    refine ⟨_, rfl, by simp, fun a b hab => ?_⟩
    simp only [Option.some.injEq, Prod.mk.injEq] at hab
    obtain ⟨rfl, rfl⟩ := hab
    field_simp

/-! ## Concrete cases -/

/-- A revolute joint without limits and a prismatic joint with position limits. -/
noncomputable def limOps : List (LOp Unit ℝ) :=
  [.sg (Op.add (fr "a" "" Kind.revolute "qa")), .sg (Op.add (fr "b" "" Kind.prismatic "qb")),
    .set .pos "qb" (-1) 3, .sg Op.init]

/-- The state after `limOps`. -/
noncomputable def limState : LGraph Unit ℝ :=
  ⟨{ map := [fr "a" "" Kind.revolute "qa", fr "b" "" Kind.prismatic "qb"]
     frames := [some ⟨fr "a" "" Kind.revolute "qa", -1, some 0⟩,
       some ⟨fr "b" "" Kind.prismatic "qb", -1, some 1⟩]
     configMap := [("qa", 0), ("qb", 1)]
     configRmap := ["qa", "qb"]
     configSize := some 2
     dirty := false },
   [⟨some (-1, 3), none, none, none⟩], Function.update (fun _ => none) "qb" (some 0),
   [none, some 0]⟩

theorem limState_eq : lrun lcreate limOps = some limState := by rfl

/-- **C81 fails** for `aa_rx_ct_sg_limits`: for a configuration without position limits it gives the
limits zero and zero, so that no motion of that joint is admitted. -/
theorem C81_violates_ct_sg_limits (junk : Nat → EReal × EReal) :
    lrun lcreate limOps = some limState ∧ getLimit limState .pos 0 = some none ∧
      ∃ r, ctSgLimits limState junk .pos 0 = some r ∧ Allowed none 1 ∧ ¬ ((1 : ℝ) : EReal) ≤ r.2 := by
  refine ⟨limState_eq, rfl, (0, 0), rfl, fun _ _ h => by simp at h, ?_⟩
  simp only [not_le]
  exact_mod_cast one_pos

/-- **C81 fails** for the efforts of `aa_rx_ct_sg_limits`: without a limit they are whatever the new
memory holds. -/
theorem C81_violates_ct_sg_limits_eff (junk : Nat → EReal × EReal) :
    ctSgLimits limState junk .eff 0 = some (junk 0) := rfl

example : ∃ q', centerConfigs limState 5 (fun _ => 7) = some q' ∧ q' 0 = 0 ∧ q' 1 = 1 ∧ q' 2 = 7 := by
  obtain ⟨q', h1, h2, h3⟩ := C81_center limState 2 5 (fun _ => 7)
    (fun i => if i = 0 then none else some (-1, 3)) rfl
    (fun i hi => by
      rcases (by omega : i = 0 ∨ i = 1) with rfl | rfl
      · rfl
      · rfl)
  refine ⟨q', h1, (h2 0 (by omega) (by omega)).1 rfl, ?_, h3 2 (by omega)⟩
  have := (h2 1 (by omega) (by omega)).2.1 (-1) 3 rfl
  linarith

example : ∃ q', subRand limState ⟨1, fun _ => 1, 1, fun _ => 1, none⟩ (fun _ => 1) 2 1 1 (fun _ => 7) =
    some q' ∧ -1 ≤ q' 0 ∧ q' 0 ≤ 3 := by
  obtain ⟨q', h1, h2, -⟩ := C81_rand limState ⟨1, fun _ => 1, 1, fun _ => 1, none⟩ (fun _ => 1) 2
    (by norm_num) (by intro i; norm_num) 1 one_pos (fun _ => 7) (fun _ => some (-1, 3))
    (fun i hi => rfl)
    (fun i _ a b h => by
      simp only [Option.some.injEq, Prod.mk.injEq] at h
      obtain ⟨rfl, rfl⟩ := h; norm_num)
  have := (h2 0 (by norm_num)).1 (-1) 3 rfl
  exact ⟨q', h1, by simpa using this.1, by simpa using this.2⟩

end Verif.Sg
