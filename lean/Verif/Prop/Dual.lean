import Verif.Model.Dual
import Verif.Proof.LnDeriv
import Mathlib.Analysis.SpecialFunctions.Trigonometric.InverseDeriv
import Mathlib.Analysis.SpecialFunctions.Sqrt
import Mathlib.Analysis.SpecialFunctions.Log.Deriv
import Mathlib.Analysis.SpecialFunctions.ExpDeriv

/-!
# Dual numbers carry derivatives (C104)
-/

namespace Verif.Dual

noncomputable section

/-- The function of real numbers that a program denotes. -/
def Expr.fn (x : Nat → ℝ) : Expr → ℝ
  | .var i => x i
  | .const a => a
  | .add a b => a.fn x + b.fn x
  | .sub a b => a.fn x - b.fn x
  | .mul a b => a.fn x * b.fn x
  | .div a b => a.fn x / b.fn x
  | .sin a => Real.sin (a.fn x)
  | .cos a => Real.cos (a.fn x)
  | .acos a => Real.arccos (a.fn x)
  | .atan2 a b => Complex.arg ⟨b.fn x, a.fn x⟩
  | .exp a => Real.exp (a.fn x)
  | .log a => Real.log (a.fn x)
  | .sqrt a => Real.sqrt (a.fn x)

/-- Every function of the program is applied inside of the domain where it is differentiable. -/
def Expr.Ok (x : Nat → ℝ) : Expr → Prop
  | .var _ => True
  | .const _ => True
  | .add a b => a.Ok x ∧ b.Ok x
  | .sub a b => a.Ok x ∧ b.Ok x
  | .mul a b => a.Ok x ∧ b.Ok x
  | .div a b => a.Ok x ∧ b.Ok x ∧ b.fn x ≠ 0
  | .sin a => a.Ok x
  | .cos a => a.Ok x
  | .acos a => a.Ok x ∧ -1 < a.fn x ∧ a.fn x < 1
  | .atan2 a b => a.Ok x ∧ b.Ok x ∧ (a.fn x ≠ 0 ∨ 0 < b.fn x)
  | .exp a => a.Ok x
  | .log a => a.Ok x ∧ 0 < a.fn x
  | .sqrt a => a.Ok x ∧ 0 < a.fn x

/-! ## C104 -/

/-- **C104 (derivatives).** The result is the value of the function and its derivative along any curves that
have the arguments as values and derivatives. -/
theorem C104_derivative (e : Expr) (x : Nat → D) (u : Nat → ℝ → ℝ) (t : ℝ) (hr : ∀ i, u i t = (x i).r)
    (hd : ∀ i, HasDerivAt (u i) (x i).d t) (ok : e.Ok fun i => (x i).r) :
    (e.eval x).r = e.fn (fun i => (x i).r) ∧
      HasDerivAt (fun s => e.fn fun i => u i s) (e.eval x).d t := by
  have hx : (fun i => u i t) = fun i => (x i).r := funext hr
  induction e with
  | var i => exact ⟨rfl, hd i⟩
  | const a => exact ⟨rfl, hasDerivAt_const t a⟩
  | add a b ha hb =>
    obtain ⟨a1, a2⟩ := ha ok.1
    obtain ⟨b1, b2⟩ := hb ok.2
    exact ⟨by simp only [Expr.eval, Expr.fn, Dual.add, a1, b1], a2.add b2⟩
  | sub a b ha hb =>
    obtain ⟨a1, a2⟩ := ha ok.1
    obtain ⟨b1, b2⟩ := hb ok.2
    exact ⟨by simp only [Expr.eval, Expr.fn, Dual.sub, a1, b1], a2.sub b2⟩
  | mul a b ha hb =>
    obtain ⟨a1, a2⟩ := ha ok.1
    obtain ⟨b1, b2⟩ := hb ok.2
    refine ⟨by simp only [Expr.eval, Expr.fn, Dual.mul, mul4, a1, b1], (a2.mul b2).congr_deriv ?_⟩
    simp only [Expr.eval, Dual.mul, mul4, hx, a1, b1]; ring
  | div a b ha hb =>
    obtain ⟨a1, a2⟩ := ha ok.1
    obtain ⟨b1, b2⟩ := hb ok.2.1
    refine ⟨by simp only [Expr.eval, Expr.fn, Dual.div, a1, b1],
      (a2.div b2 (by rw [hx]; exact ok.2.2)).congr_deriv ?_⟩
    simp only [Expr.eval, Dual.div, hx, a1, b1]
  | sin a ha =>
    obtain ⟨a1, a2⟩ := ha ok
    refine ⟨by simp only [Expr.eval, Expr.fn, Dual.sin, a1], a2.sin.congr_deriv ?_⟩
    simp only [Expr.eval, Dual.sin, hx, a1]
  | cos a ha =>
    obtain ⟨a1, a2⟩ := ha ok
    refine ⟨by simp only [Expr.eval, Expr.fn, Dual.cos, a1], a2.cos.congr_deriv ?_⟩
    simp only [Expr.eval, Dual.cos, hx, a1]
  | acos a ha =>
    obtain ⟨a1, a2⟩ := ha ok.1
    refine ⟨by simp only [Expr.eval, Expr.fn, Dual.acos, a1], ?_⟩
    have h := Real.hasDerivAt_arccos (x := a.fn fun i => u i t) (by rw [hx]; exact ok.2.1.ne')
      (by rw [hx]; exact ok.2.2.ne)
    refine (h.comp t a2).congr_deriv ?_
    simp only [Expr.eval, Dual.acos, hx, a1]; ring
  | atan2 a b ha hb =>
    obtain ⟨a1, a2⟩ := ha ok.1
    obtain ⟨b1, b2⟩ := hb ok.2.1
    refine ⟨by simp only [Expr.eval, Expr.fn, Dual.atan2, Tf.atan2, a1, b1], ?_⟩
    refine (Tf.hasDerivAt_atan2 a2 b2 (by rw [hx]; exact ok.2.2)).congr_deriv ?_
    simp only [Expr.eval, Dual.atan2, hx, a1, b1, sq]
  | exp a ha =>
    obtain ⟨a1, a2⟩ := ha ok
    refine ⟨by simp only [Expr.eval, Expr.fn, Dual.exp, a1], a2.exp.congr_deriv ?_⟩
    simp only [Expr.eval, Dual.exp, hx, a1]
  | log a ha =>
    obtain ⟨a1, a2⟩ := ha ok.1
    refine ⟨by simp only [Expr.eval, Expr.fn, Dual.log, a1],
      (a2.log (by rw [hx]; exact ok.2.ne')).congr_deriv ?_⟩
    simp only [Expr.eval, Dual.log, hx, a1]
  | sqrt a ha =>
    obtain ⟨a1, a2⟩ := ha ok.1
    refine ⟨by simp only [Expr.eval, Expr.fn, Dual.sqrt, a1],
      (a2.sqrt (by rw [hx]; exact ok.2.ne')).congr_deriv ?_⟩
    simp only [Expr.eval, Dual.sqrt, hx, a1]

/-- **C104 (arrays).** The first half of an array are the values, the second half the derivatives: packing and
unpacking are inverse to each other, and scaling an array multiplies every one of its dual numbers. -/
theorem C104_arrays (c : List D) (x : List ℝ) (h : Even x.length) (a : D) :
    pack (unpack c) = c ∧ unpack (pack x) = x ∧
      (pack x).length = x.length / 2 ∧
      scalv a.r a.d (unpack c) = unpack (c.map fun b => Dual.mul a b) := by
  have p : ∀ c : List D, pack (unpack c) = c := by
    intro c
    have hl : (unpack c).length / 2 = c.length := by simp [unpack]; omega
    simp only [pack, hl]
    simp only [unpack]
    rw [List.take_left' (by simp), List.drop_left' (by simp), List.take_of_length_le (by simp)]
    induction c with
    | nil => rfl
    | cons b c ih => simp
  obtain ⟨k, hk⟩ := h
  have zl : ∀ (y z : List ℝ), y.length = z.length →
      (List.zipWith D.mk y z).map D.r = y ∧ (List.zipWith D.mk y z).map D.d = z := by
    intro y
    induction y with
    | nil => intro z h; cases z with | nil => exact ⟨rfl, rfl⟩ | cons _ _ => simp at h
    | cons b y ih =>
      intro z h
      cases z with
      | nil => simp at h
      | cons d z =>
        obtain ⟨h1, h2⟩ := ih z (by simpa using h)
        simp [h1, h2]
  refine ⟨p c, ?_, ?_, ?_⟩
  · have hn : x.length / 2 = k := by omega
    have e : (x.drop k).take k = x.drop k := List.take_of_length_le (by simp; omega)
    simp only [pack, unpack, hn, e]
    obtain ⟨h1, h2⟩ := zl (x.take k) (x.drop k) (by simp; omega)
    rw [h1, h2, List.take_append_drop]
  · simp [pack]; omega
  · have hl : (unpack c).length / 2 = c.length := by simp [unpack]; omega
    simp only [scalv, hl]
    have h1 : (unpack c).take c.length = c.map D.r := List.take_left' (by simp)
    have h2 : ((unpack c).drop c.length).take c.length = c.map D.d := by
      rw [unpack, List.drop_left' (by simp), List.take_of_length_le (by simp)]
    have h3 : (unpack c).drop (c.length + c.length) = [] := by simp [unpack]
    rw [h1, h2, h3, List.append_nil]
    simp only [List.zipWith_map, List.zipWith_self, List.map_map, unpack]
    rfl

/-- The derivative of `sqrt(x² + y²) atan2(y, x)` at `(3, 4)` along `(1, 0)`: the program is inside of the
domain. -/
example : (Expr.mul (.sqrt (.add (.mul (.var 0) (.var 0)) (.mul (.var 1) (.var 1))))
    (.atan2 (.var 1) (.var 0))).Ok (fun i => if i = 0 then 3 else 4) := by
  simp only [Expr.Ok, Expr.fn]; norm_num

/-- Curves as in the theorem exist for all arguments. -/
example (x : Nat → D) : ∃ u : Nat → ℝ → ℝ, (∀ i, u i 0 = (x i).r) ∧ ∀ i, HasDerivAt (u i) (x i).d 0 :=
  ⟨fun i s => (x i).r + s * (x i).d, fun i => by simp,
    fun i => by simpa using ((hasDerivAt_id (0:ℝ)).mul_const (x i).d).const_add (x i).r⟩

end

end Verif.Dual
