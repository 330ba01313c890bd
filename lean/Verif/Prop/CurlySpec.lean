/-
What arithmetic in a scene file means, independently of the parser: the documented grammar
(doc/md/scenefile.md:57-63) made unambiguous by the usual rules, and the value of an expression.
-/
import Verif.Model.CurlyExp

namespace Verif.Curly

/-- The binary operators. -/
inductive Bop | add | sub | mul | div | pow
deriving DecidableEq

/-- Expressions as a reader understands them. -/
inductive Ex (K : Type) where
  | num (r : K)
  | name (s : String)
  | neg (e : Ex K)
  | bin (o : Bop) (a b : Ex K)
  | paren (e : Ex K)
deriving DecidableEq

variable {K : Type}

/-- How an operator is written. -/
def Bop.tok : Bop → Tok K
  | .add => .add
  | .sub => .minus
  | .mul => .mul
  | .div => .div
  | .pow => .pow

/-- `Gram p l e`: the tokens `l` read as `e`.  Level 4: a number, a name, an expression in parentheses, or a
minus sign before one of these; level 3: powers, from the right; level 2: products and quotients, from the
left; level 1: sums and differences, from the left. -/
inductive Gram : Nat → List (Tok K) → Ex K → Prop
  | num (r : K) : Gram 4 [.num r] (.num r)
  | name (s : String) : Gram 4 [.name s] (.name s)
  | paren {l : List (Tok K)} {e : Ex K} : Gram 1 l e → Gram 4 (.lpar :: (l ++ [.rpar])) (.paren e)
  | neg {l : List (Tok K)} {e : Ex K} : Gram 4 l e → Gram 4 (.minus :: l) (.neg e)
  | pow {l m : List (Tok K)} {a b : Ex K} :
      Gram 4 l a → Gram 3 m b → Gram 3 (l ++ Bop.tok .pow :: m) (.bin .pow a b)
  | prod {l m : List (Tok K)} {a b : Ex K} (o : Bop) : o = .mul ∨ o = .div →
      Gram 2 l a → Gram 3 m b → Gram 2 (l ++ o.tok :: m) (.bin o a b)
  | sum {l m : List (Tok K)} {a b : Ex K} (o : Bop) : o = .add ∨ o = .sub →
      Gram 1 l a → Gram 2 m b → Gram 1 (l ++ o.tok :: m) (.bin o a b)
  | up4 {l : List (Tok K)} {e : Ex K} : Gram 4 l e → Gram 3 l e
  | up3 {l : List (Tok K)} {e : Ex K} : Gram 3 l e → Gram 2 l e
  | up2 {l : List (Tok K)} {e : Ex K} : Gram 2 l e → Gram 1 l e

/-- The value of an operator on two numbers; quotients need a non-zero divisor, powers are `pw`. -/
def Bop.app [Field K] [DecidableEq K] (pw : K → K → Option K) (a b : K) : Bop → Option K
  | .add => some (a + b)
  | .sub => some (a - b)
  | .mul => some (a * b)
  | .div => if b = 0 then none else some (a / b)
  | .pow => pw a b

/-- What a name means: its latest definition, or the name itself. -/
def meaning (defs : List (String × Val K)) (s : String) : Val K := (defs.lookup s).getD (.str s)

/-- The value of an expression, if it has one. -/
def Ex.value [Field K] [DecidableEq K] (pw : K → K → Option K) (defs : List (String × Val K)) :
    Ex K → Option (Val K)
  | .num r => some (.num r)
  | .name s => some (meaning defs s)
  | .neg e => match e.value pw defs with
      | some (.num a) => some (.num (-a))
      | _ => none
  | .bin o a b => match a.value pw defs, b.value pw defs with
      | some (.num x), some (.num y) => (o.app pw x y).map .num
      | _, _ => none
  | .paren e => e.value pw defs

/-- Neither a minus sign before an operand nor a power anywhere. -/
def Ex.plain : Ex K → Bool
  | .num _ => true
  | .name _ => true
  | .neg _ => false
  | .bin o a b => (o != .pow) && a.plain && b.plain
  | .paren e => e.plain

/-- Every operand in parentheses is plain. -/
def Ex.okIn : Ex K → Bool
  | .num _ => true
  | .name _ => true
  | .neg e => e.okIn
  | .bin _ a b => a.okIn && b.okIn
  | .paren e => e.plain

/-- Every operand in parentheses is plain; parentheses around the whole expression do not count. -/
def Ex.tame : Ex K → Bool
  | .paren e => e.tame
  | e => e.okIn

end Verif.Curly
