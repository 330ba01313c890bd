import Verif.Model.SgLim
import Verif.Model.SgSub
import Verif.Model.Stat
import Mathlib.Data.EReal.Basic

/-!
# Model: configurations and limit records made from the limits of a scene graph

`none` is undefined behaviour, an abort or a division by zero.  `±INFINITY` are `⊥` and `⊤`.
-/

namespace Verif.Sg

section
variable {P : Type}

/-- src/rx/sg_api.cpp:603-611 `aa_rx_sg_config_center`. -/
noncomputable def configCenter (s : LGraph P ℝ) (id : Int) : Option ℝ :=
  match getLimit s .pos id with
  | none => none
  | some none => some 0
  | some (some (lo, hi)) => some ((hi + lo) / 2)

/-- A loop that stores `f i` in element `i` of a vector with increment `inc`: `n` are left from `i`. -/
def fillLoop (f : Nat → Option ℝ) (inc : Nat) : Nat → Nat → (Nat → ℝ) → Option (Nat → ℝ)
  | 0, _, q => some q
  | n + 1, i, q =>
    match f i with
    | none => none
    | some v => fillLoop f inc n (i + 1) (Function.update q (i * inc) v)

/-- src/rx/sg_api.cpp:613-622 `aa_rx_sg_center_configs`. -/
noncomputable def centerConfigs (s : LGraph P ℝ) (n : Nat) (q : Nat → ℝ) : Option (Nat → ℝ) :=
  match configCount s.g with
  | none => none
  | some nq => fillLoop (fun i => configCenter s i) 1 (min n nq) 0 q

/-- src/rx/scene_kin.c:657-675 `aa_rx_sg_sub_center_configs`, `aa_rx_sg_sub_center_configv`. -/
noncomputable def subCenter (s : LGraph P ℝ) (sub : Sub) (len inc : Nat) (q : Nat → ℝ) :
    Option (Nat → ℝ) :=
  if len ≠ sub.configCount then none
  else fillLoop (fun i => configCenter s (sub.configs i)) inc sub.configCount 0 q

/-- src/rx/scene_kin.c:684-689: one random element; `r` is what `rand()` returns. -/
noncomputable def randElt (s : LGraph P ℝ) (id : Int) (r randMax : Nat) : Option ℝ :=
  match getLimit s .pos id with
  | none => none
  | some none => some (Scalar.frandMinmax r randMax (-Real.pi) Real.pi)
  | some (some (lo, hi)) => some (Scalar.frandMinmax r randMax lo hi)

/-- src/rx/scene_kin.c:677-691 `aa_rx_sg_sub_rand_config`; `rs` are the results of `rand()`. -/
noncomputable def subRand (s : LGraph P ℝ) (sub : Sub) (rs : Nat → Nat) (randMax len inc : Nat)
    (q : Nat → ℝ) : Option (Nat → ℝ) :=
  if len ≠ sub.configCount then none
  else fillLoop (fun i => randElt s (sub.configs i) (rs i) randMax) inc sub.configCount 0 q

/-- src/rx/rx_ct.c:83-108 `aa_rx_ct_limits`: element `i` of the member for kind `k` of `min` and
`max`. -/
noncomputable def ctLimits (s : LGraph P ℝ) (k : LimKind) (i : Nat) : Option (EReal × EReal) :=
  match getLimit s k i with
  | none => none
  | some none => some (⊥, ⊤)
  | some (some (lo, hi)) => some (lo, hi)

/-- src/rx/rx_ct.c:292-313 `aa_rx_ct_sg_limits`: likewise.  Without a limit the elements keep what
`aa_ct_state_alloc` (src/ct/state.c:45-70) left in them: zero, or for `eff` the contents `junk` of
the new memory. -/
noncomputable def ctSgLimits (s : LGraph P ℝ) (junk : Nat → EReal × EReal) (k : LimKind) (i : Nat) :
    Option (EReal × EReal) :=
  match getLimit s k i with
  | none => none
  | some none => some (if k = LimKind.eff then junk i else (0, 0))
  | some (some (lo, hi)) => some (lo, hi)

open Classical in
/-- src/rx/ik_opt.c:168-177: the gain of one element in `aa_rx_ik_parm_center_configs`. -/
noncomputable def centerGain (s : LGraph P ℝ) (gain : ℝ) (id : Int) : Option ℝ :=
  match getLimit s .pos id with
  | none => none
  | some none => some 0
  | some (some (lo, hi)) => if hi - lo = 0 then none else some (gain * (2 * Real.pi) / (hi - lo))

end
end Verif.Sg
