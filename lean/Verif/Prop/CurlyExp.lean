/-
C154: what arithmetic in a scene file is worth (lisp/rx/inex.lisp, lisp/rx/scenefile/curly.lisp).
-/
import Verif.Proof.CurlyRefuse
import Mathlib.Algebra.Field.Rat
import Mathlib.Tactic.NormNum

namespace Verif.Curly

variable {K : Type} [Field K] [DecidableEq K]

/-! ### Definitions -/

/-- **C154 (definitions get a value exactly as the grammar and arithmetic say).**  Whatever the tokens after
`def name` are: they give a value `v` if and only if they are an expression of the grammar, a semicolon and
the rest, every operand in parentheses is free of unary minus and powers, and arithmetic gives `v`. -/
theorem C154_def_iff (pw : K → K → Option K) (defs : List (String × Val K)) (ts rest : List (Tok K))
    (v : Val K) :
    defValue pw defs ts = some (v, rest) ↔
      ∃ l e, ts = l ++ .semi :: rest ∧ Gram 1 l e ∧ e.tame = true ∧ e.value pw defs = some v := by
  have key : ∀ l (e : Ex K) rest', Gram 1 l e → defValue pw defs (l ++ .semi :: rest') =
      (if e.tame = true then e.value pw defs else none).map fun v => (v, rest') := by
    intro l e rest' h
    rw [← result_eval pw defs h]
    unfold defValue
    rw [run_expr h .defn .semi rest' (Or.inl rfl)]
    cases hr : e.result with
    | none => simp [handOn]
    | some r => simp [handOn, ret]
  constructor
  · intro h
    have h' := h
    unfold defValue at h'
    split at h'
    · rename_i r rest' heq
      rw [Option.map_eq_some_iff] at h'
      obtain ⟨w, hw, hw2⟩ := h'
      simp only [Prod.mk.injEq] at hw2
      obtain ⟨rfl, rfl⟩ := hw2
      obtain ⟨l, e, h1, h2⟩ := (refuses_all pw defs ts).1 [] [] [] invV_nil (by simp) r rest' w heq hw
      simp only [pre, List.nil_append] at h1
      subst h1
      rw [key l e rest' h2] at h
      split_ifs at h with ht
      · refine ⟨l, e, rfl, h2, ht, ?_⟩
        rw [Option.map_eq_some_iff] at h
        obtain ⟨u, hu, hu2⟩ := h
        simp only [Prod.mk.injEq, and_true] at hu2
        rw [hu, hu2]
      · simp at h
    · simp at h'
  · rintro ⟨l, e, rfl, h2, ht, hv⟩
    rw [key l e rest h2, if_pos ht, hv]; rfl

/-- **C154 (a definition never gets a wrong value, and malformed ones are refused).** -/
theorem C154_def_sound (pw : K → K → Option K) (defs : List (String × Val K)) (ts rest : List (Tok K))
    (v : Val K) (h : defValue pw defs ts = some (v, rest)) :
    ∃ l e, ts = l ++ .semi :: rest ∧ Gram 1 l e ∧ e.value pw defs = some v := by
  obtain ⟨l, e, h1, h2, _, h3⟩ := (C154_def_iff pw defs ts rest v).1 h
  exact ⟨l, e, h1, h2, h3⟩

/-- **C154 (definitions, partial).**  Missing: operands in parentheses with a unary minus or a power inside. -/
theorem C154_def_partial (pw : K → K → Option K) (defs : List (String × Val K)) (l rest : List (Tok K))
    (e : Ex K) (v : Val K) (h : Gram 1 l e) (ht : e.tame = true) (hv : e.value pw defs = some v) :
    defValue pw defs (l ++ .semi :: rest) = some (v, rest) :=
  (C154_def_iff pw defs _ rest v).2 ⟨l, e, rfl, h, ht, hv⟩

/-! ### Array elements -/

/-- Expressions separated by commas. -/
def sep : List (List (Tok K)) → List (Tok K)
  | [] => []
  | [l] => l
  | l :: ls => l ++ .comma :: sep ls

/-- The values of all expressions, if all have one. -/
def values (pw : K → K → Option K) (defs : List (String × Val K)) : List (Ex K) → Option (List (Val K))
  | [] => some []
  | e :: es => (e.value pw defs).bind fun v => (values pw defs es).map (v :: ·)

/-- The results of all expressions, if all have one. -/
def results : List (Ex K) → Option (List (Sx K))
  | [] => some []
  | e :: es => e.result.bind fun r => (results es).map (r :: ·)

omit [Field K] [DecidableEq K] in
theorem arrCons_ne {r : Sx K} (h : r ≠ .list []) (el : List (Sx K)) : arrCons r el = r :: el := by
  unfold arrCons
  split
  · exact absurd rfl h
  · rfl

omit [Field K] [DecidableEq K] in
theorem run_arr (items : List (Sx K)) (rest : List (Tok K)) :
    ∀ (ls : List (List (Tok K))) (es : List (Ex K)), List.Forall₂ (Gram 1) ls es → ls ≠ [] →
      ∀ el, run (.val [] [] (.arr el items)) (sep ls ++ .rbr :: rest) =
        match results es with
        | none => none
        | some rs => run (.body (.vec (el.reverse ++ rs) :: items)) rest := by
  intro ls
  induction ls with
  | nil => intro es _ h; exact absurd rfl h
  | cons l ls ih =>
    intro es h _ el
    cases h with
    | cons hl hls =>
      rename_i e es
      have hnn := result_nonnil e
      cases ls with
      | nil =>
        cases hls
        simp only [sep]
        rw [run_expr hl _ _ _ (Or.inr (Or.inr rfl))]
        cases hr : e.result with
        | none => simp [handOn, results, hr]
        | some r => simp [handOn, results, hr, ret, arrCons_ne (hnn r hr)]
      | cons l2 ls =>
        have : sep (l :: l2 :: ls) ++ Tok.rbr :: rest =
            l ++ Tok.comma :: (sep (l2 :: ls) ++ Tok.rbr :: rest) := by simp [sep]
        rw [this, run_expr hl _ _ _ (Or.inr (Or.inl rfl))]
        cases hr : e.result with
        | none => simp [handOn, results, hr]
        | some r =>
          simp only [handOn, ret, arrCons_ne (hnn r hr)]
          rw [ih es hls (by simp)]
          simp only [results, hr, Option.bind_some]
          cases results es <;> simp

theorem evalL_results (pw : K → K → Option K) (defs : List (String × Val K)) :
    ∀ (ls : List (List (Tok K))) (es : List (Ex K)), List.Forall₂ (Gram 1) ls es →
      (results es).bind (evalL pw defs) =
        if es.all (fun e => e.tame) = true then values pw defs es else none := by
  intro ls es h
  induction h with
  | nil => simp [results, evalL, values]
  | cons hl hls ih =>
    rename_i l e ls es
    have he := result_eval pw defs hl
    have hc : (results (e :: es)).bind (evalL pw defs) =
        (e.result.bind (eval pw defs)).bind fun v => ((results es).bind (evalL pw defs)).map (v :: ·) := by
      simp only [results]
      cases e.result with
      | none => rfl
      | some r =>
        cases hr : results es with
        | none => cases hv : eval pw defs r <;> simp
        | some rs => simp [evalL]
    rw [hc, he, ih]
    by_cases h1 : e.tame = true
    · by_cases h2 : es.all (fun e => e.tame) = true
      · simp [h1, h2, values]
      · simp only [h1, h2, List.all_cons, Bool.true_and]
        cases e.value pw defs <;> simp
    · simp [h1]

/-- **C154 (arrays, partial).**  An attribute `[e₁, …, eₙ]` gets the array of the values of its elements,
exactly if all have values and operands in parentheses are free of unary minus and powers. -/
theorem C154_array_partial (pw : K → K → Option K) (defs : List (String × Val K))
    (ls : List (List (Tok K))) (es : List (Ex K)) (rest : List (Tok K))
    (h : List.Forall₂ (Gram 1) ls es) (hne : ls ≠ []) :
    propValue pw defs (.lbr :: (sep ls ++ .rbr :: .semi :: rest)) =
      if es.all (fun e => e.tame) = true then (values pw defs es).map fun vs => (.vec vs, rest)
      else none := by
  have hb : ∀ r : Sx K, run (.body [r]) (.semi :: rest) = some ([r], rest) := fun r => rfl
  have h1 : run (.body []) (.lbr :: (sep ls ++ .rbr :: .semi :: rest)) =
      match results es with
      | none => none
      | some rs => some ([.vec rs], rest) := by
    rw [run_go (s' := .val [] [] (.arr [] [])) rfl, run_arr [] _ ls es h hne []]
    cases results es with
    | none => rfl
    | some rs => exact hb _
  have h2 := evalL_results pw defs ls es h
  unfold propValue
  rw [h1]
  cases hr : results es with
  | none =>
    rw [hr] at h2
    simp only [Option.bind_none] at h2
    split_ifs at h2 ⊢
    · rw [← h2]; rfl
    · rfl
  | some rs =>
    rw [hr, Option.bind_some] at h2
    simp only [eval]
    rw [h2]
    split_ifs <;> simp [Option.map_map, Function.comp_def]

/-! ### Attributes -/

/-- Not a parenthesis first, nor a number or name followed by a minus sign. -/
def plainStart : List (Tok K) → Bool
  | .lpar :: _ => false
  | .num _ :: .minus :: _ => false
  | .name _ :: .minus :: _ => false
  | _ => true

omit [Field K] [DecidableEq K] in
theorem run_stmt {l : List (Tok K)} {e : Ex K} (h : Gram 1 l e) (hp : plainStart l = true)
    (rest : List (Tok K)) :
    run (.body []) (l ++ .semi :: rest) = run (.val [] [] .stmt) (l ++ .semi :: rest) := by
  obtain ⟨t, l', rfl, ht⟩ := gram_first h
  have hm : ∀ a : Sx K, (l' ++ Tok.semi :: rest).head? ≠ some .minus →
      run (.next [a] [] .stmt) (l' ++ Tok.semi :: rest) = run (.body [a]) (l' ++ Tok.semi :: rest) :=
    fun a h => run_one a _ h
  have hh : (∀ l'', l' ≠ .minus :: l'') → (l' ++ Tok.semi :: rest).head? ≠ some .minus := by
    intro h0 h1
    cases l' with
    | nil => simp at h1
    | cons x l'' =>
      simp only [List.cons_append, List.head?_cons, Option.some.injEq] at h1
      exact h0 l'' (by rw [h1])
  cases t <;> simp [Tok.starts] at ht
  · rw [List.cons_append, run_go (s := .body []) rfl, run_go (s := .val [] [] .stmt) rfl, hm _ (hh _)]
    rintro l'' rfl
    simp [plainStart] at hp
  · rw [List.cons_append, run_go (s := .body []) rfl, run_go (s := .val [] [] .stmt) rfl, hm _ (hh _)]
    rintro l'' rfl
    simp [plainStart] at hp
  · rfl
  · simp [plainStart] at hp

/-- **C154 (attributes, partial).**  The value of an attribute is that of the expression, if the expression
starts neither with a parenthesis nor with a number or name followed by a minus sign. -/
theorem C154_attribute_partial (pw : K → K → Option K) (defs : List (String × Val K))
    (l rest : List (Tok K)) (e : Ex K) (h : Gram 1 l e) (hp : plainStart l = true) :
    propValue pw defs (l ++ .semi :: rest) =
      if e.tame = true then (e.value pw defs).map fun v => (v, rest) else none := by
  have h2 := result_eval pw defs h
  unfold propValue
  rw [run_stmt h hp, run_expr h .stmt .semi rest (Or.inl rfl)]
  cases hr : e.result with
  | none =>
    rw [hr] at h2
    simp only [Option.bind_none] at h2
    split_ifs at h2 ⊢
    · rw [← h2]; rfl
    · rfl
  | some r =>
    rw [hr, Option.bind_some] at h2
    simp only [handOn, ret, bodyStatement, List.reverse_cons, List.reverse_nil, List.nil_append]
    rw [h2]
    split_ifs <;> simp

/-! ### Where the code falls short -/

/-- No powers, for the examples. -/
def noPow : ℚ → ℚ → Option ℚ := fun _ _ => none

/-- `4 - x * (1 + 2)` with `x = 3`. -/
def exLine : List (Tok ℚ) := [.num 4, .minus, .name "x", .mul, .lpar, .num 1, .add, .num 2, .rpar]
/-- What it means. -/
def exTree : Ex ℚ := .bin .sub (.num 4) (.bin .mul (.name "x") (.paren (.bin .add (.num 1) (.num 2))))

theorem exLine_gram : Gram 1 exLine exTree := by
  have h1 : Gram 1 [Tok.num (1 : ℚ), .add, .num 2] (.bin .add (.num 1) (.num 2)) :=
    Gram.sum (l := [.num 1]) (m := [.num 2]) .add (Or.inl rfl) (.up2 (.up3 (.up4 (.num 1))))
      (.up3 (.up4 (.num 2)))
  have h2 := Gram.prod (l := [.name "x"]) .mul (Or.inl rfl) (.up3 (.up4 (Gram.name (K := ℚ) "x")))
    (.up4 (.paren h1))
  exact Gram.sum (l := [.num 4]) .sub (Or.inr rfl) (.up2 (.up3 (.up4 (.num 4)))) h2

/-- The definition theorem applies to `4 - x * (1 + 2)`, which is -5. -/
example : defValue noPow [("x", .num 3)] (exLine ++ [.semi]) = some (.num (-5), []) := by
  refine C154_def_partial noPow [("x", .num 3)] exLine [] exTree _ exLine_gram rfl ?_
  simp [exTree, Ex.value, Bop.app, meaning, List.lookup]
  norm_num

/-- The array theorem applies to `[4 - x * (1 + 2), 4 - x * (1 + 2)]`. -/
example : propValue noPow [("x", .num 3)] (.lbr :: (sep [exLine, exLine] ++ .rbr :: .semi :: [])) =
    some (.vec [.num (-5), .num (-5)], []) := by
  rw [C154_array_partial noPow _ [exLine, exLine] [exTree, exTree] []
    (.cons exLine_gram (.cons exLine_gram .nil)) (by simp), if_pos (show [exTree, exTree].all (fun e => e.tame) = true from rfl)]
  simp [values, exTree, Ex.value, Bop.app, meaning, List.lookup]
  norm_num

/-- `- x` as an attribute. -/
example : propValue noPow [("x", .num 3)] ([.minus, .name "x"] ++ .semi :: []) =
    some (.num (-3), ([] : List (Tok ℚ))) := by
  rw [C154_attribute_partial noPow _ [.minus, .name "x"] [] (.neg (.name "x"))
    (.up2 (.up3 (.up4 (.neg (.name "x"))))) rfl,
    if_pos (show (Ex.neg (K := ℚ) (.name "x")).tame = true from rfl)]
  simp [Ex.value, meaning, List.lookup]

/-- `2 * ( - x )`. -/
def negLine : List (Tok ℚ) := [.num 2, .mul, .lpar, .minus, .name "x", .rpar]
/-- What it means. -/
def negTree : Ex ℚ := .bin .mul (.num 2) (.paren (.neg (.name "x")))

theorem negLine_gram : Gram 1 negLine negTree :=
  .up2 (Gram.prod (l := [.num 2]) .mul (Or.inl rfl) (.up3 (.up4 (.num 2)))
    (.up4 (.paren (l := [.minus, .name "x"]) (.up2 (.up3 (.up4 (.neg (.name "x"))))))))

/-- **C154 is violated by a minus sign inside parentheses:** `def y 2 * (-x);` is an expression of the
grammar with a value, -6 for `x = 3`, but `inexp-parse` reads the list `(- x)` made for the parentheses as a
subtraction without left operand, and loading the scene ends with an error. -/
theorem C154_minus_in_parentheses_violates :
    Gram 1 negLine negTree ∧ negTree.value noPow [("x", .num 3)] = some (.num (-6)) ∧
      defValue noPow [("x", .num 3)] (negLine ++ [.semi]) = none := by
  refine ⟨negLine_gram, ?_, ?_⟩
  · simp [negTree, Ex.value, Bop.app, meaning, List.lookup]; norm_num
  · cases h : defValue noPow [("x", .num 3)] (negLine ++ [.semi]) with
    | none => rfl
    | some p =>
      exfalso
      revert h
      simp [defValue, negLine, run, step, finish, exprResult, inexpParse, shunt, shuntL, shunt1, isOp,
        popLoop, rpn, rpn1, rpnOp, top, ret, eval, arith2]

/-- Products. -/
def mulPow : ℚ → ℚ → Option ℚ := fun a b => if b = 2 then some (a * a) else none

/-- `2 * ( x ^ 2 )`. -/
def powLine : List (Tok ℚ) := [.num 2, .mul, .lpar, .name "x", .pow, .num 2, .rpar]
/-- What it means. -/
def powTree : Ex ℚ := .bin .mul (.num 2) (.paren (.bin .pow (.name "x") (.num 2)))

/-- **C154 is violated by a power inside parentheses:** `def y 2 * (x^2);` is an expression of the grammar
with the value 18 for `x = 3`, but the symbol `expt` of the list made for the parentheses is taken for an
operand, and loading the scene fails. -/
theorem C154_power_in_parentheses_violates :
    Gram 1 powLine powTree ∧ powTree.value mulPow [("x", .num 3)] = some (.num 18) ∧
      defValue mulPow [("x", .num 3)] (powLine ++ [.semi]) = none := by
  refine ⟨?_, ?_, ?_⟩
  · exact .up2 (Gram.prod (l := [.num 2]) .mul (Or.inl rfl) (.up3 (.up4 (.num 2)))
      (.up4 (.paren (l := [.name "x", .pow, .num 2]) (.up2 (.up3
        (Gram.pow (l := [.name "x"]) (.name "x") (.up4 (.num 2))))))))
  · simp [powTree, Ex.value, Bop.app, meaning, List.lookup, mulPow]; norm_num
  · cases h : defValue mulPow [("x", .num 3)] (powLine ++ [.semi]) with
    | none => rfl
    | some p =>
      exfalso
      revert h
      simp [defValue, powLine, run, step, finish, exprResult, inexpParse, shunt, shuntL, shunt1, isOp,
        popLoop, rpn, rpn1, rpnOp, top, ret]

/-- `x - ( - y )`. -/
def subLine : List (Tok ℚ) := [.name "x", .minus, .lpar, .minus, .name "y", .rpar]
/-- What it means. -/
def subTree : Ex ℚ := .bin .sub (.name "x") (.paren (.neg (.name "y")))

/-- **C154 is violated by attributes with a wrong value:** for `x = 5` and `y = 3` the attribute
`radius x - (-y);` is 8, but the minus sign after the first value of an attribute is taken for a sign, and
the scene gets -2. -/
theorem C154_attribute_wrong_violates :
    Gram 1 subLine subTree ∧
      subTree.value noPow [("x", .num 5), ("y", .num 3)] = some (.num 8) ∧
      propValue noPow [("x", .num 5), ("y", .num 3)] (subLine ++ [.semi]) = some (.num (-2), []) := by
  refine ⟨?_, ?_, ?_⟩
  · exact Gram.sum (l := [.name "x"]) .sub (Or.inr rfl) (.up2 (.up3 (.up4 (.name "x"))))
      (.up3 (.up4 (.paren (l := [.minus, .name "y"]) (.up2 (.up3 (.up4 (.neg (.name "y"))))))))
  · simp [subTree, Ex.value, Bop.app, meaning, List.lookup]; norm_num
  · simp [propValue, subLine, run, step, bodyStatement, finish, exprResult, inexpParse, shunt, shuntL, shunt1,
      isOp, popLoop, rpn, rpn1, rpnOp, top, ret, eval, arith2, arith, negate, look]
    norm_num

/-- **C154 is violated by refused attributes:** differences `x - y` and expressions that start with a
parenthesis, `(x + y) / 2`, are refused as values of attributes, although the documented grammar allows them
and definitions accept them. -/
theorem C154_attribute_refused_violates (x y : ℚ) :
    propValue noPow [] [.num x, .minus, .num y, .semi] = none ∧
      propValue noPow [] [.lpar, .num x, .add, .num y, .rpar, .div, .num 2, .semi] = none ∧
      defValue noPow [] [.num x, .minus, .num y, .semi] = some (.num (x - y), []) ∧
      defValue noPow [] [.lpar, .num x, .add, .num y, .rpar, .div, .num 2, .semi] =
        some (.num ((x + y) / 2), []) := by
  refine ⟨?_, ?_, ?_, ?_⟩
  · simp [propValue, run, step, bodyStatement, finish, exprResult, inexpParse, shunt, shuntL, shunt1,
      isOp, popLoop, rpn, rpn1, rpnOp, top]
  · simp [propValue, run, step, bodyStatement]
  · simp [defValue, run, step, finish, exprResult, inexpParse, shunt, shuntL, shunt1,
      isOp, popLoop, rpn, rpn1, rpnOp, top, ret, eval, arith2, arith]
  · simp [defValue, run, step, finish, exprResult, inexpParse, shunt, shuntL, shunt1,
      isOp, popLoop, rpn, rpn1, rpnOp, top, ret, eval, arith2, arith]

omit [Field K] [DecidableEq K] in
/-- An expression does not end with an operator or a comma. -/
theorem gram_last {p : Nat} {l : List (Tok K)} {e : Ex K} (h : Gram p l e) :
    ∃ l' t, l = l' ++ [t] ∧ (t = .rpar ∨ (∃ r, t = .num r) ∨ ∃ s, t = .name s) := by
  induction h with
  | num r => exact ⟨[], _, rfl, Or.inr (Or.inl ⟨r, rfl⟩)⟩
  | name s => exact ⟨[], _, rfl, Or.inr (Or.inr ⟨s, rfl⟩)⟩
  | paren _ _ => exact ⟨_, _, by rw [← List.cons_append], Or.inl rfl⟩
  | neg _ ih => obtain ⟨l', t, rfl, ht⟩ := ih; exact ⟨.minus :: l', t, by simp, ht⟩
  | pow _ _ _ ihb =>
    rename_i l m _ _ _ _ _
    obtain ⟨l', t, rfl, ht⟩ := ihb; exact ⟨l ++ Bop.tok .pow :: l', t, by simp, ht⟩
  | prod o _ _ _ _ ihb =>
    rename_i l m _ _ _ _ _ _
    obtain ⟨l', t, rfl, ht⟩ := ihb; exact ⟨l ++ o.tok :: l', t, by simp, ht⟩
  | sum o _ _ _ _ ihb =>
    rename_i l m _ _ _ _ _ _
    obtain ⟨l', t, rfl, ht⟩ := ihb; exact ⟨l ++ o.tok :: l', t, by simp, ht⟩
  | up4 _ ih => exact ih
  | up3 _ ih => exact ih
  | up2 _ ih => exact ih

/-- **C154 is violated by malformed attributes:** `scale 2 1 +;` is no expression but sets the scale to 3, and
`[1,,2]` is taken as `[1,2]`. -/
theorem C154_malformed_violates :
    (∀ e : Ex ℚ, ¬ Gram 1 [.num 2, .num 1, .add] e) ∧
      propValue noPow [] [.num 2, .num 1, .add, .semi] = some (.num 3, []) ∧
      (∀ e : Ex ℚ, ¬ Gram 1 [] e) ∧
      propValue noPow [] [.lbr, .num 1, .comma, .comma, .num 2, .rbr, .semi] =
        some (.vec [.num 1, .num 2], []) := by
  refine ⟨?_, ?_, ?_, ?_⟩
  · intro e h
    obtain ⟨l', t, hl, ht⟩ := gram_last h
    have : t = .add := by
      have := congrArg List.getLast? hl
      simpa using this.symm
    subst this
    simp at ht
  · simp [propValue, run, step, bodyStatement, finish, exprResult, inexpParse, shunt, shuntL, shunt1,
      isOp, popLoop, rpn, rpn1, rpnOp, top, ret, eval, arith2, arith]
    norm_num
  · intro e h
    obtain ⟨t, l', hl, _⟩ := gram_first h
    simp at hl
  · simp [propValue, run, step, bodyStatement, finish, exprResult, ret, arrCons, eval, evalL]

end Verif.Curly
