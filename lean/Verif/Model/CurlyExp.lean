/-
Arithmetic in scene files: `lisp/rx/inex.lisp` (infix expressions) and the part of the parser and
evaluator of `lisp/rx/scenefile/curly.lisp` that reads definitions, statements and arrays.

Simplified: the text is already cut into tokens (the regular expressions of the lexer,
curly.lisp:77-157, are not modelled, so the numbers keep the sign the lexer gives them).  Numbers are the
elements of a field; `expt` is an arbitrary partial function.  `none` stands for any signalled error
(parse error, failed assertion, type error, division by zero).
-/
import Mathlib.Algebra.Field.Basic
import Mathlib.Data.Rat.Defs

namespace Verif.Curly

/-- The symbols the expressions are made of: the operators of `inexp-opp`
(lisp/rx/inex.lisp:49-52) and `expt`, which `inexp-rpn` puts in front of powers (inex.lisp:64-65). -/
inductive Sym | add | sub | mul | div | pow | pows | neg | expt
deriving DecidableEq, Repr

/-- Lisp objects: symbols, numbers, strings, vectors of a scene file, and lists; `list []` is `nil`. -/
inductive Sx (K : Type) where
  | sym (s : Sym)
  | num (r : K)
  | str (s : String)
  | vec (l : List (Sx K))
  | list (l : List (Sx K))

variable {K : Type}

/-- `inexp-precedence` (lisp/rx/inex.lisp:37-42). -/
def prec : Sym → Nat
  | .add | .sub => 1
  | .mul | .div => 2
  | .pow | .pows => 3
  | .neg => 4
  | .expt => 0

/-- `inexp-left` (lisp/rx/inex.lisp:44-47). -/
def leftAssoc : Sym → Bool
  | .add | .sub | .mul | .div => true
  | _ => false

/-- `inexp-opp` on symbols (lisp/rx/inex.lisp:49-52). -/
def isOp : Sym → Bool
  | .expt => false
  | _ => true

/-- The test of the loop in `inexp-shunt` (lisp/rx/inex.lisp:83-85): is the operator `top` of the stack
moved to the output before `k` is pushed? -/
def pops (k top : Sym) : Bool :=
  if leftAssoc k then decide (prec k ≤ prec top) else decide (prec k < prec top)

/-- The loop of `inexp-shunt` (lisp/rx/inex.lisp:80-86), giving the new stack and output. -/
def popLoop (k : Sym) : List Sym → List (Sx K) → List Sym × List (Sx K)
  | [], out => ([], out)
  | t :: st, out => if pops k t then popLoop k st (.sym t :: out) else (t :: st, out)

mutual
/-- The body of `inexp-shunt` (lisp/rx/inex.lisp:72-90) from a stack and a reversed output: the loop over the
list, then the flushing of the stack; the result is the reversed output. -/
def shuntL : List (Sx K) → List Sym → List (Sx K) → List (Sx K)
  | [], st, out => st.foldl (fun o s => .sym s :: o) out
  | k :: l, st, out =>
      match shunt1 k st out with
      | (st', out') => shuntL l st' out'
/-- One element (lisp/rx/inex.lisp:75-88). -/
def shunt1 : Sx K → List Sym → List (Sx K) → List Sym × List (Sx K)
  | .list l, st, out => (st, shuntL l [] [] ++ out)
  | .sym s, st, out =>
      if isOp s then
        match popLoop s st out with
        | (st', out') => (s :: st', out')
      else (st, .sym s :: out)
  | .num r, st, out => (st, .num r :: out)
  | .str s, st, out => (st, .str s :: out)
  | .vec v, st, out => (st, .vec v :: out)
end

/-- `inexp-shunt` (lisp/rx/inex.lisp:72-90). -/
def shunt (l : List (Sx K)) : List (Sx K) := (shuntL l [] []).reverse

/-- `(car stack)` of a possibly empty stack. -/
def top : List (Sx K) → Sx K
  | [] => .list []
  | a :: _ => a

/-- One operator in `inexp-rpn` (lisp/rx/inex.lisp:57-66); popping an empty stack gives `nil`. -/
def rpnOp (s : Sym) (st : List (Sx K)) : List (Sx K) :=
  match s with
  | .neg => .list [.sym .sub, top st] :: st.tail
  | .pow | .pows => .list [.sym .expt, top st.tail, top st] :: st.tail.tail
  | s => .list [.sym s, top st.tail, top st] :: st.tail.tail

/-- One element in `inexp-rpn` (lisp/rx/inex.lisp:57-67). -/
def rpn1 (st : List (Sx K)) : Sx K → List (Sx K)
  | .sym s => if isOp s then rpnOp s st else .sym s :: st
  | a => a :: st

/-- `inexp-rpn` (lisp/rx/inex.lisp:54-70), with its assertion that one object is left. -/
def rpn (l : List (Sx K)) : Option (Sx K) :=
  match l.foldl rpn1 [] with
  | [a] => some a
  | _ => none

/-- `inexp-parse` (lisp/rx/inex.lisp:97-100); `nil` is an atom. -/
def inexpParse : Sx K → Option (Sx K)
  | .list (a :: l) => rpn (shunt (a :: l))
  | a => some a

/-- The tokens of a scene file that matter here (lisp/rx/scenefile/curly.lisp:77-137): numbers (`:integer`,
`:float`), identifiers, strings, `:binop`s (both `**` and `^` give the symbol `^`), `-`, and punctuation. -/
inductive Tok (K : Type) where
  | num (r : K)
  | name (s : String)
  | string (s : String)
  | add | mul | div | pow | minus
  | lpar | rpar | lbr | rbr | comma | semi
  | other
deriving DecidableEq

/-- `expr-result` (lisp/rx/scenefile/curly.lisp:295-298); `e` is reversed. -/
def exprResult : List (Sx K) → Option (Sx K)
  | [] => some (.list [])
  | [a] => some a
  | e => inexpParse (.list e.reverse)

/-- Who called `expr` or `expr-val`: `def-value` (curly.lisp:225-230), `body-statement`
(curly.lisp:286-291) or `array` with the elements and the items of the statement so far
(curly.lisp:319-329, called at curly.lisp:282-283). -/
inductive Kont (K : Type) where
  | defn
  | stmt
  | arr (elements items : List (Sx K))

/-- Where the parser is: in `expr-val` or `expr-next` with the list `e`, the lists of the pending calls of
`expr-paren` and the caller, or in `body-next` with its items. -/
inductive St (K : Type) where
  | val (e : List (Sx K)) (frames : List (List (Sx K))) (k : Kont K)
  | next (e : List (Sx K)) (frames : List (List (Sx K))) (k : Kont K)
  | body (items : List (Sx K))

/-- A step of the parser ends in another state, or with the items of the statement. -/
inductive Step (K : Type) where
  | go (s : St K)
  | done (items : List (Sx K))

/-- `body-statement` (lisp/rx/scenefile/curly.lisp:278-292). -/
def bodyStatement (items : List (Sx K)) : Tok K → Option (Step K)
  | .semi => some (.done items.reverse)
  | .lbr => some (.go (.val [] [] (.arr [] items)))
  | .num r => some (.go (.body (.num r :: items)))
  | .name s => some (.go (.body (.str s :: items)))
  | .string s => some (.go (.body (.str s :: items)))
  | .add => some (.go (.val (.sym .add :: items) [] .stmt))
  | .mul => some (.go (.val (.sym .mul :: items) [] .stmt))
  | .div => some (.go (.val (.sym .div :: items) [] .stmt))
  | .pow => some (.go (.val (.sym .pow :: items) [] .stmt))
  | .minus => some (.go (.val (.sym .neg :: items) [] .stmt))
  | _ => none

/-- `(if e (cons e elements) elements)` (lisp/rx/scenefile/curly.lisp:323-325). -/
def arrCons (r : Sx K) (elements : List (Sx K)) : List (Sx K) :=
  match r with
  | .list [] => elements
  | r => r :: elements

/-- What the caller of `expr` does with the result `r` and the token `t` after it: `def-value`
(curly.lisp:225-230), `body-statement` (curly.lisp:286-291), `array` (curly.lisp:319-329). -/
def ret (r : Sx K) (t : Tok K) : Kont K → Option (Step K)
  | .defn => match t with
      | .semi => some (.done [r])
      | _ => none
  | .stmt => bodyStatement [r] t
  | .arr elements items => match t with
      | .rbr => some (.go (.body (.vec (arrCons r elements).reverse :: items)))
      | .comma => some (.go (.val [] [] (.arr (arrCons r elements) items)))
      | _ => none

/-- The end of an expression (`otherwise` in `expr-next` and `expr-val`, curly.lisp:303-304 and 311-312):
to the pending `expr-paren` (curly.lisp:313-318), or to the caller. -/
def finish (e : List (Sx K)) (frames : List (List (Sx K))) (k : Kont K) (t : Tok K) : Option (Step K) :=
  (exprResult e).bind fun r =>
    match frames with
    | [] => ret r t k
    | e' :: fs => match t with
        | .rpar => some (.go (.next (r :: e') fs k))
        | _ => none

/-- One token: `expr-val` (lisp/rx/scenefile/curly.lisp:305-312), `expr-next` (299-304), `body-next`
(274-277). -/
def step : St K → Tok K → Option (Step K)
  | .val e fs k, t => match t with
      | .num r => some (.go (.next (.num r :: e) fs k))
      | .name s => some (.go (.next (.str s :: e) fs k))
      | .minus => some (.go (.val (.sym .neg :: e) fs k))
      | .lpar => some (.go (.val [] (e :: fs) k))
      | t => finish e fs k t
  | .next e fs k, t => match t with
      | .add => some (.go (.val (.sym .add :: e) fs k))
      | .mul => some (.go (.val (.sym .mul :: e) fs k))
      | .div => some (.go (.val (.sym .div :: e) fs k))
      | .pow => some (.go (.val (.sym .pow :: e) fs k))
      | .minus => some (.go (.val (.sym .sub :: e) fs k))
      | t => finish e fs k t
  | .body items, t => bodyStatement items t

/-- The parser from a state to the `;`: the items of the statement and the remaining tokens.  At the end of
the file there is no token and every caller signals an error. -/
def run : St K → List (Tok K) → Option (List (Sx K) × List (Tok K))
  | _, [] => none
  | s, t :: ts =>
      match step s t with
      | none => none
      | some (.done items) => some (items, ts)
      | some (.go s') => run s' ts

/-- Values of properties and definitions. -/
inductive Val (K : Type) where
  | num (r : K)
  | str (s : String)
  | vec (l : List (Val K))

/-- `(apply #'+ …)` and so on for one or two arguments (lisp/rx/scenefile/curly.lisp:357-368); any argument
that is no number is a type error. -/
def arith [Field K] [DecidableEq K] (pw : K → K → Option K) (s : Sym) (a b : K) : Option K :=
  match s with
  | .add => some (a + b)
  | .sub => some (a - b)
  | .mul => some (a * b)
  | .div => if b = 0 then none else some (a / b)
  | .expt => pw a b
  | _ => none

/-- The two arguments of an operator must be numbers (lisp/rx/scenefile/curly.lisp:357-368). -/
def arith2 [Field K] [DecidableEq K] (pw : K → K → Option K) (s : Sym) :
    Option (Val K) → Option (Val K) → Option (Val K)
  | some (.num a), some (.num b) => (arith pw s a b).map .num
  | _, _ => none

/-- `(- a)` (lisp/rx/scenefile/curly.lisp:363-364). -/
def negate [Field K] : Option (Val K) → Option (Val K)
  | some (.num a) => some (.num (-a))
  | _ => none

/-- `(assoc e defs :test #'equal)` (lisp/rx/scenefile/curly.lisp:354-356). -/
def look (defs : List (String × Val K)) (s : String) : Val K :=
  match defs.find? (fun d => d.1 == s) with
  | some d => d.2
  | none => .str s

mutual
/-- `curly-eval` (lisp/rx/scenefile/curly.lisp:347-370) on the objects `inexp-parse` makes: `expt` takes two
arguments, the lists with an operator have one (only `-`) or two arguments here; symbols and `nil` are
errors. -/
def eval [Field K] [DecidableEq K] (pw : K → K → Option K) (defs : List (String × Val K)) :
    Sx K → Option (Val K)
  | .num r => some (.num r)
  | .str s => some (look defs s)
  | .sym _ => none
  | .vec l => (evalL pw defs l).map .vec
  | .list [.sym .sub, a] => negate (eval pw defs a)
  | .list [.sym s, a, b] => arith2 pw s (eval pw defs a) (eval pw defs b)
  | .list _ => none
/-- `(map 'list #'recurse-0 args)` (lisp/rx/scenefile/curly.lisp:350-351). -/
def evalL [Field K] [DecidableEq K] (pw : K → K → Option K) (defs : List (String × Val K)) :
    List (Sx K) → Option (List (Val K))
  | [] => some []
  | a :: l => (eval pw defs a).bind fun v => (evalL pw defs l).map (v :: ·)
end

/-- The value of a definition, from the tokens after its name: `def-value` (curly.lisp:225-230) and
`add-def` (curly.lisp:382-385), with the tokens after the `;`. -/
def defValue [Field K] [DecidableEq K] (pw : K → K → Option K) (defs : List (String × Val K))
    (ts : List (Tok K)) : Option (Val K × List (Tok K)) :=
  match run (.val [] [] .defn) ts with
  | some ([r], rest) => (eval pw defs r).map fun v => (v, rest)
  | _ => none

/-- The value of an attribute, from the tokens after its name: `body-next` (curly.lisp:274-277) and
`add-prop` (curly.lisp:386-389), which asserts that there is one item. -/
def propValue [Field K] [DecidableEq K] (pw : K → K → Option K) (defs : List (String × Val K))
    (ts : List (Tok K)) : Option (Val K × List (Tok K)) :=
  match run (.body []) ts with
  | some ([r], rest) => (eval pw defs r).map fun v => (v, rest)
  | _ => none

end Verif.Curly
