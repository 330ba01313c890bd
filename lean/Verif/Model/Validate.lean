import Verif.Model.La
import Verif.Model.TfCheck
import Verif.Model.Time

/-!
# Validation of data (src/validate.c)

A `double` that is compared is `none` (not a number) or an element of a linear order `K`
(the numbers and the infinities, the two zeros being one).
-/

namespace Verif.Validate

variable {K : Type} [LinearOrder K]

/-- `a < b` of doubles: false if one is not a number. -/
def lt : Option K → Option K → Bool
  | some a, some b => decide (a < b)
  | _, _ => false

/-- `a <= b` of doubles. -/
def le : Option K → Option K → Bool
  | some a, some b => decide (a ≤ b)
  | _, _ => false

/-- src/validate.c:45-47 `aa_valid_f`. -/
def validF (value min max : Option K) : Int := if le min value && le value max then 0 else -1

/-- `(int)n` (gcc: the low 32 bits, signed). -/
def toInt (n : Nat) : Int :=
  let r : Nat := n % 2 ^ 32
  if r < 2 ^ 31 then (r : Int) else (r : Int) - 2 ^ 32

/-- src/validate.c:55-62: the body of the loop; a null array is `none`. -/
def bad (min max : Option (Nat → Option K)) (values : Nat → Option K) (i : Nat) : Bool :=
  (match min with | some a => lt (values i) (a i) | none => false)
  || (match max with | some b => lt (b i) (values i) | none => false)

/-- src/validate.c:54: the loop, `k` turns left, at `i`. -/
def scan (p : Nat → Bool) : Nat → Nat → Int
  | 0, _ => 0
  | k + 1, i => if p i then i + 1 else scan p k (i + 1)

/-- src/validate.c:49-65 `aa_valid_v`. -/
def validV (values : Nat → Option K) (n : Nat) (min max : Option (Nat → Option K))
    (nDesired : Nat) : Int :=
  if n ≠ nDesired then -1
  else if min.isSome || max.isSome then scan (bad min max values) (toInt n).toNat 0
  else 0

/-- src/validate.c:67-69 `aa_valid_vunit`, over the reals. -/
noncomputable def validVunit (values n : Nat) (tol : ℝ) (m : Mat.Mem ℝ) : Int :=
  if Tf.feq (La.norm n values m) 1 tol then 0 else 1

/-- a difference of two `long`s; `none` is signed overflow. -/
def subLong (a b : Int) : Option Int :=
  if -(2 ^ 63) ≤ a - b ∧ a - b < 2 ^ 63 then some (a - b) else none

/-- include/amino/time.h:109-114 `aa_tm_cmp`, with overflow. -/
def cmpLong (a b : Time.TS) : Option Int :=
  if a.sec ≠ b.sec then subLong a.sec b.sec else subLong a.nsec b.nsec

/-- src/validate.c:71-74 `aa_valid_timespec`. -/
def validTimespec (tm before after : Time.TS) : Option Int :=
  match cmpLong tm before with
  | none => none
  | some c =>
    if c < 0 then some 1
    else match cmpLong tm after with
      | none => none
      | some d => some (if 0 < d then 1 else 0)

end Verif.Validate
