import Verif.Model.Wf

/-!
# Scanners generated by flex

The generated automaton itself is not in the repository.  What is modelled is the documented meaning
of a flex description: in every start condition the rule with the longest match is taken, of several
the one written first; a character no rule matches is echoed and dropped; at the end of the input
the scanner returns 0.
-/

namespace Verif.Flex

open Verif.Wf

/-- What a scanner does: goes on (or ends) with a state, returns -1, or has undefined behaviour. -/
inductive Out (A : Type)
  | ok (a : A)
  | null
  | ub
  deriving DecidableEq, Repr

/-- A rule: the number of characters it matches at the start of the input (0 if it does not match;
no rule here matches the empty text) and its action on the matched text. -/
structure Rule (E : Type) where
  len : List Char → Nat
  act : List Char → E → Out E

/-- The rule that is taken: the longest match, the first of equals. -/
def munch {E : Type} (s : List Char) : List (Rule E) → Option (Rule E)
  | [] => none
  | r :: rs =>
    match munch s rs with
    | none => if r.len s = 0 then none else some r
    | some q => if q.len s ≤ r.len s then some r else some q

/-- The loop of the scanner.  `rules` are the rules of the current start condition.  Every step
removes a character, so the length of the input is enough fuel. -/
def lex {E : Type} (rules : E → List (Rule E)) : Nat → E → List Char → Out E
  | _, e, [] => .ok e
  | 0, e, _ => .ok e
  | k + 1, e, c :: s =>
    match munch (c :: s) (rules e) with
    | none => lex rules k e s
    | some r =>
      match r.act ((c :: s).take (r.len (c :: s))) e with
      | .ok e' => lex rules k e' ((c :: s).drop (r.len (c :: s)))
      | .null => .null
      | .ub => .ub

/-! ## The patterns of wavefront.l (95-107) and mtl.l -/

/-- `[[:graph:]]`. -/
def isGraph (c : Char) : Bool := 33 ≤ c.toNat && c.toNat ≤ 126

/-- `.`: anything but a newline. -/
def notNl (c : Char) : Bool := c != '\n'

/-- `[[:blank:]]*`. -/
def mBlanks (s : List Char) : Nat := (s.takeWhile isBlank).length

/-- What may follow the blanks of `END`: `("#".*)?"\n"`. -/
def mNl : List Char → Nat
  | [] => 0
  | c :: t =>
    if c = '\n' then 1
    else if c = '#' then
      if t.dropWhile notNl = [] then 0 else (t.takeWhile notNl).length + 2
    else 0

/-- `END` (wavefront.l 95). -/
def mEnd (s : List Char) : Nat :=
  if mNl (s.dropWhile isBlank) = 0 then 0 else mBlanks s + mNl (s.dropWhile isBlank)

/-- `{START}"kw"{BLANKS}`. -/
def mKw (kw : List Char) (s : List Char) : Nat :=
  if kw.isPrefixOf (s.dropWhile isBlank) then
    if mBlanks ((s.dropWhile isBlank).drop kw.length) = 0 then 0
    else mBlanks s + kw.length + mBlanks ((s.dropWhile isBlank).drop kw.length)
  else 0

/-- `{START}"kw"{BLANKS}.*`. -/
def mKwLine (kw : List Char) (s : List Char) : Nat :=
  if mKw kw s = 0 then 0 else mKw kw s + ((s.drop (mKw kw s)).takeWhile notNl).length

/-- `"l"{BLANKS}.*`: no blanks before (wavefront.l 310). -/
def mL (s : List Char) : Nat := if s.head? = some 'l' then mKwLine ['l'] s else 0

/-- `.`. -/
def mDot : List Char → Nat
  | [] => 0
  | c :: _ => if c = '\n' then 0 else 1

/-- `[[:graph:]]+`. -/
def mGraph (s : List Char) : Nat := (s.takeWhile isGraph).length

/-- `INT`. -/
def mInt (s : List Char) : Nat := (s.takeWhile Char.isDigit).length

/-- `"-"?`. -/
def mMinus (s : List Char) : Nat := if s.head? = some '-' then 1 else 0

/-- `("."{DIGIT}*)?`. -/
def mFrac : List Char → Nat
  | [] => 0
  | c :: t => if c = '.' then 1 + mInt t else 0

/-- `([eds]"-"?{INT})?`. -/
def mExp : List Char → Nat
  | [] => 0
  | c :: t =>
    if c = 'e' ∨ c = 'd' ∨ c = 's' then
      if mInt (t.drop (mMinus t)) = 0 then 0 else 1 + mMinus t + mInt (t.drop (mMinus t))
    else 0

/-- `NUMBER` (wavefront.l 99). -/
def mNum (s : List Char) : Nat :=
  let r := s.drop (mMinus s)
  if mInt r = 0 then 0
  else
    let r1 := r.drop (mInt r)
    let r2 := r1.drop (mFrac r1)
    mMinus s + mInt r + mFrac r1 + mExp r2

/-- `NUMBER_BLANKS` (wavefront.l 103). -/
def mNumBlanks (s : List Char) : Nat :=
  if mNum s = 0 ∨ mBlanks (s.drop (mNum s)) = 0 then 0 else mNum s + mBlanks (s.drop (mNum s))

/-- `NUMBER_END` (wavefront.l 104). -/
def mNumEnd (s : List Char) : Nat :=
  if mNum s = 0 then 0 else mNum s + mBlanks (s.drop (mNum s))

/-- `"/"`. -/
def mSlash (s : List Char) : Nat := if s.head? = some '/' then 1 else 0

/-- `{INT}"/"`. -/
def mIntSlash (s : List Char) : Nat :=
  if mInt s = 0 ∨ mSlash (s.drop (mInt s)) = 0 then 0 else mInt s + 1

/-- `{INT}{BLANKS}`. -/
def mIntBlanks (s : List Char) : Nat :=
  if mInt s = 0 ∨ mBlanks (s.drop (mInt s)) = 0 then 0 else mInt s + mBlanks (s.drop (mInt s))

/-- `{INT}{END}`. -/
def mIntEnd (s : List Char) : Nat :=
  if mInt s = 0 ∨ mEnd (s.drop (mInt s)) = 0 then 0 else mInt s + mEnd (s.drop (mInt s))

/-- `<*>.`: the error rule, `return -1` (wavefront.l 316-322). -/
def errRule {E : Type} : Rule E := ⟨mDot, fun _ _ => .null⟩

end Verif.Flex
