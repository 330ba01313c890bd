/- Helper lemmas for C154: the shunting yard, the stack machine, and the parser of scene files. -/
import Verif.Prop.CurlySpec
import Mathlib.Tactic.Linarith
import Mathlib.Tactic.Ring

namespace Verif.Curly

variable {K : Type}

/-! ### Trees -/

/-- The operator of `inexp`. -/
def Bop.sym : Bop → Sym
  | .add => .add
  | .sub => .sub
  | .mul => .mul
  | .div => .div
  | .pow => .pow

/-- The head of the list made for an operator. -/
def Bop.head : Bop → Sym
  | .pow => .expt
  | o => o.sym

/-- The Lisp list an expression should become. -/
def Ex.tree : Ex K → Sx K
  | .num r => .num r
  | .name s => .str s
  | .neg e => .list [.sym .sub, e.tree]
  | .bin o a b => .list [.sym o.head, a.tree, b.tree]
  | .paren e => e.tree

/-- Its reverse polish notation. -/
def Ex.post : Ex K → List (Sx K)
  | .num r => [.num r]
  | .name s => [.str s]
  | .neg e => e.post ++ [.sym .neg]
  | .bin o a b => a.post ++ b.post ++ [.sym o.sym]
  | .paren e => e.post

/-- The list handed to `inexp-parse`, if all parentheses are read. -/
def Ex.items : Ex K → Option (List (Sx K))
  | .num r => some [.num r]
  | .name s => some [.str s]
  | .neg e => e.items.map (fun i => .sym .neg :: i)
  | .bin o a b => a.items.bind fun i => b.items.map fun j => i ++ .sym o.sym :: j
  | .paren e => (e.items.bind fun i => exprResult i.reverse).map fun r => [r]

/-- What `expr-result` gives. -/
def Ex.result (e : Ex K) : Option (Sx K) := e.items.bind fun i => exprResult i.reverse

/-! ### The parser -/

theorem run_go {s s' : St K} {t : Tok K} {ts : List (Tok K)} (h : step s t = some (.go s')) :
    run s (t :: ts) = run s' ts := by
  simp [run, h]

theorem step_next_op (o : Bop) (e : List (Sx K)) (fs : List (List (Sx K))) (k : Kont K) :
    step (.next e fs k) o.tok = some (.go (.val (.sym o.sym :: e) fs k)) := by
  cases o <;> rfl

/-- Continue from an optional list of items. -/
def contNext (e0 : List (Sx K)) (fs : List (List (Sx K))) (k : Kont K) (rest : List (Tok K)) :
    Option (List (Sx K)) → Option (List (Sx K) × List (Tok K))
  | none => none
  | some i => run (.next (i.reverse ++ e0) fs k) rest

theorem contNext_op (o : Bop) (e0 : List (Sx K)) (fs : List (List (Sx K))) (k : Kont K)
    (m rest : List (Tok K)) (a b : Ex K)
    (hb : ∀ e0, run (.val e0 fs k) (m ++ rest) = contNext e0 fs k rest b.items) :
    contNext e0 fs k (o.tok :: (m ++ rest)) a.items = contNext e0 fs k rest (Ex.bin o a b).items := by
  cases ha : a.items with
  | none => simp [contNext, Ex.items, ha]
  | some i =>
    simp only [contNext]
    rw [run_go (step_next_op o _ _ _), hb]
    cases hb' : b.items with
    | none => simp [contNext, Ex.items, ha, hb']
    | some j => simp [contNext, Ex.items, ha, hb']

theorem run_gram {p : Nat} {l : List (Tok K)} {e : Ex K} (h : Gram p l e) :
    ∀ (e0 : List (Sx K)) (fs : List (List (Sx K))) (k : Kont K) (rest : List (Tok K)),
      run (.val e0 fs k) (l ++ rest) = contNext e0 fs k rest e.items := by
  induction h with
  | num r => intro e0 fs k rest; rfl
  | name s => intro e0 fs k rest; rfl
  | paren h ih =>
    rename_i l e
    intro e0 fs k rest
    have : (Tok.lpar :: (l ++ [Tok.rpar]) ++ rest) = Tok.lpar :: (l ++ (Tok.rpar :: rest)) := by simp
    rw [this, run_go (s' := .val [] (e0 :: fs) k) rfl, ih]
    cases hi : e.items with
    | none => simp [contNext, Ex.items, hi]
    | some i =>
      simp only [contNext, Ex.items, hi, List.append_nil, Option.bind_some]
      cases hr : exprResult i.reverse with
      | none => simp [run, step, finish, hr]
      | some r => simp [run, step, finish, hr]
  | neg h ih =>
    rename_i l e
    intro e0 fs k rest
    rw [List.cons_append, run_go (s' := .val (.sym .neg :: e0) fs k) rfl, ih]
    cases hi : e.items <;> simp [contNext, Ex.items, hi]
  | pow ha hb iha ihb =>
    intro e0 fs k rest
    rw [List.append_assoc, List.cons_append, iha, contNext_op]
    intro e0; exact ihb e0 fs k rest
  | prod o _ ha hb iha ihb =>
    intro e0 fs k rest
    rw [List.append_assoc, List.cons_append, iha, contNext_op]
    intro e0; exact ihb e0 fs k rest
  | sum o _ ha hb iha ihb =>
    intro e0 fs k rest
    rw [List.append_assoc, List.cons_append, iha, contNext_op]
    intro e0; exact ihb e0 fs k rest
  | up4 _ ih => exact ih
  | up3 _ ih => exact ih
  | up2 _ ih => exact ih

/-! ### The shunting yard -/

/-- The loop of `inexp-shunt` on states. -/
def loop (l : List (Sx K)) (s : List Sym × List (Sx K)) : List Sym × List (Sx K) :=
  l.foldl (fun s k => shunt1 k s.1 s.2) s

/-- Flushing operators to the output. -/
def flush (ops : List Sym) (out : List (Sx K)) : List (Sx K) :=
  ops.foldl (fun o s => .sym s :: o) out

theorem shuntL_eq (l : List (Sx K)) : ∀ st out,
    shuntL l st out = flush (loop l (st, out)).1 (loop l (st, out)).2 := by
  induction l with
  | nil => intro st out; simp [shuntL, loop, flush]
  | cons k l ih =>
    intro st out
    simp only [shuntL, loop, List.foldl_cons]
    exact ih _ _

theorem loop_append (l m : List (Sx K)) (s) : loop (l ++ m) s = loop m (loop l s) := by
  simp [loop]

theorem loop_cons (k : Sx K) (l : List (Sx K)) (s) : loop (k :: l) s = loop l (shunt1 k s.1 s.2) := rfl

theorem flush_append (a b : List Sym) (out : List (Sx K)) :
    flush (a ++ b) out = flush b (flush a out) := by simp [flush]

theorem popLoop_ops (k : Sym) (st : List Sym) (hst : ∀ t, st.head? = some t → pops k t = false) :
    ∀ (ops : List Sym) (out : List (Sx K)), (∀ o ∈ ops, pops k o = true) →
      popLoop k (ops ++ st) out = (st, flush ops out) := by
  intro ops
  induction ops with
  | nil =>
    intro out _
    cases st with
    | nil => rfl
    | cons t st => simp [popLoop, hst t rfl, flush]
  | cons o ops ih =>
    intro out h
    simp only [List.cons_append, popLoop, h o (by simp), if_true]
    rw [ih _ (fun o' ho' => h o' (by simp [ho']))]
    rfl

theorem shunt1_plain (e : Ex K) (h : e.plain = true) : ∀ st out,
    shunt1 e.tree st out = (st, e.post.reverse ++ out) := by
  induction e with
  | num r => intro st out; simp [Ex.tree, Ex.post, shunt1]
  | name s => intro st out; simp [Ex.tree, Ex.post, shunt1]
  | neg e _ => simp [Ex.plain] at h
  | bin o a b iha ihb =>
    intro st out
    simp only [Ex.plain, Bool.and_eq_true, bne_iff_ne, ne_eq] at h
    have ho : o.head = o.sym ∧ isOp o.sym = true := by
      cases o <;> simp_all [Bop.head, Bop.sym, isOp]
    simp only [Ex.tree, shunt1, shuntL_eq, loop_cons, ho.1, ho.2, if_true, popLoop]
    rw [iha h.1.2, ihb h.2]
    simp [loop, flush, Ex.post]
  | paren e ih =>
    intro st out
    simp only [Ex.tree, Ex.post]
    exact ih (by simpa [Ex.plain] using h) st out

/-- The stacks under which level `p` may be read. -/
def Safe (p : Nat) (st : List Sym) : Prop :=
  ∀ t, st.head? = some t → p = 4 ∨ (p = 3 ∧ prec t ≤ 3) ∨ (p = 2 ∧ prec t ≤ 1)

/-- The items when operands in parentheses are read as they should be. -/
def Ex.ideal : Ex K → List (Sx K)
  | .num r => [.num r]
  | .name s => [.str s]
  | .neg e => .sym .neg :: e.ideal
  | .bin o a b => a.ideal ++ .sym o.sym :: b.ideal
  | .paren e => [e.tree]

/-- What the loop does with the items of level `p`. -/
def Shunts (p : Nat) (e : Ex K) : Prop :=
  ∀ st (out : List (Sx K)), Safe p st → ∃ ops out',
    loop e.ideal (st, out) = (ops ++ st, out') ∧ flush ops out' = e.post.reverse ++ out ∧
      ∀ o ∈ ops, p ≤ prec o

theorem shunts_bin {p q r : Nat} {o : Bop} {a b : Ex K} (ha : Shunts q a) (hb : Shunts r b)
    (hq : ∀ st, Safe p st → Safe q st)
    (hpop : ∀ t, q ≤ prec t → pops o.sym t = true)
    (hst : ∀ st, Safe p st → ∀ t, st.head? = some t → pops o.sym t = false)
    (hr : ∀ st, Safe r (o.sym :: st)) (hpo : p ≤ prec o.sym) (hpr : p ≤ r) :
    Shunts p (.bin o a b) := by
  intro st out hs
  obtain ⟨ops, out', h1, h2, h3⟩ := ha st out (hq st hs)
  obtain ⟨ops2, out2, g1, g2, g3⟩ := hb (o.sym :: st) (flush ops out') (hr st)
  refine ⟨ops2 ++ [o.sym], out2, ?_, ?_, ?_⟩
  · have ho : isOp o.sym = true := by cases o <;> rfl
    simp only [Ex.ideal, loop_append, loop_cons, h1, shunt1, ho, if_true]
    rw [popLoop_ops o.sym st (hst st hs) ops out' (fun t ht => hpop t (h3 t ht))]
    simp [g1]
  · rw [flush_append, g2, h2]
    simp [flush, Ex.post]
  · intro t ht
    rcases List.mem_append.1 ht with ht | ht
    · exact le_trans hpr (g3 t ht)
    · rw [List.mem_singleton.1 ht]; exact hpo

theorem shunts_gram {p : Nat} {l : List (Tok K)} {e : Ex K} (h : Gram p l e) :
    e.okIn = true → Shunts p e := by
  induction h with
  | num r => intro _ st out _; exact ⟨[], .num r :: out, rfl, rfl, by simp⟩
  | name s => intro _ st out _; exact ⟨[], .str s :: out, rfl, rfl, by simp⟩
  | paren h ih =>
    rename_i l e
    intro hk st out _
    refine ⟨[], e.post.reverse ++ out, ?_, rfl, by simp⟩
    simp only [Ex.ideal, loop_cons]
    rw [shunt1_plain e (by simpa [Ex.okIn] using hk)]
    rfl
  | neg h ih =>
    rename_i l e
    intro hk st out _
    obtain ⟨ops, out', h1, h2, h3⟩ := ih (by simpa [Ex.okIn] using hk) (.neg :: st) out
      (fun t _ => Or.inl rfl)
    refine ⟨ops ++ [.neg], out', ?_, ?_, ?_⟩
    · have hp : popLoop (K := K) .neg st out = (st, out) := by
        have := popLoop_ops (K := K) .neg st (fun t _ => by cases t <;> rfl) [] out (by simp)
        simpa [flush] using this
      simp only [Ex.ideal, loop_cons, shunt1, isOp, if_true, hp, h1]
      simp
    · rw [flush_append, h2]; simp [flush, Ex.post]
    · intro t ht
      rcases List.mem_append.1 ht with ht | ht
      · exact h3 t ht
      · rw [List.mem_singleton.1 ht]; decide
  | pow ha hb iha ihb =>
    intro hk
    simp only [Ex.okIn, Bool.and_eq_true] at hk
    refine shunts_bin (iha hk.1) (ihb hk.2) (fun st _ t _ => Or.inl rfl) ?_ ?_ ?_ (by decide) (by decide)
    · intro t ht; cases t <;> simp_all [prec, pops, leftAssoc, Bop.sym]
    · intro st hs t ht
      have := hs t ht
      cases t <;> simp_all [prec, pops, leftAssoc, Bop.sym]
    · intro st t ht
      simp only [List.head?_cons, Option.some.injEq] at ht
      subst ht
      right; left; decide
  | prod o ho ha hb iha ihb =>
    intro hk
    simp only [Ex.okIn, Bool.and_eq_true] at hk
    refine shunts_bin (iha hk.1) (ihb hk.2) (fun st h => h) ?_ ?_ ?_ ?_ (by decide)
    · intro t ht; rcases ho with rfl | rfl <;> cases t <;> simp_all [prec, pops, leftAssoc, Bop.sym]
    · intro st hs t ht
      have := hs t ht
      rcases ho with rfl | rfl <;> cases t <;> simp_all [prec, pops, leftAssoc, Bop.sym]
    · intro st t ht
      simp only [List.head?_cons, Option.some.injEq] at ht
      subst ht
      right; left; rcases ho with rfl | rfl <;> decide
    · rcases ho with rfl | rfl <;> decide
  | sum o ho ha hb iha ihb =>
    intro hk
    simp only [Ex.okIn, Bool.and_eq_true] at hk
    refine shunts_bin (iha hk.1) (ihb hk.2) (fun st h => h) ?_ ?_ ?_ ?_ (by decide)
    · intro t ht; rcases ho with rfl | rfl <;> cases t <;> simp_all [prec, pops, leftAssoc, Bop.sym]
    · intro st hs t ht
      have := hs t ht
      simp at this
    · intro st t ht
      simp only [List.head?_cons, Option.some.injEq] at ht
      subst ht
      right; right; rcases ho with rfl | rfl <;> decide
    · rcases ho with rfl | rfl <;> decide
  | up4 _ ih =>
    intro hk st out hs
    obtain ⟨ops, out', h1, h2, h3⟩ := ih hk st out (fun t _ => Or.inl rfl)
    exact ⟨ops, out', h1, h2, fun o ho => le_trans (by decide) (h3 o ho)⟩
  | up3 _ ih =>
    intro hk st out hs
    obtain ⟨ops, out', h1, h2, h3⟩ := ih hk st out (fun t ht => by
      have := hs t ht
      right; left; exact ⟨rfl, by omega⟩)
    exact ⟨ops, out', h1, h2, fun o ho => le_trans (by decide) (h3 o ho)⟩
  | up2 _ ih =>
    intro hk st out hs
    obtain ⟨ops, out', h1, h2, h3⟩ := ih hk st out (fun t ht => by
      have := hs t ht
      simp at this)
    exact ⟨ops, out', h1, h2, fun o ho => le_trans (by decide) (h3 o ho)⟩

/-! ### The stack machine -/

theorem foldl_post (e : Ex K) : ∀ st : List (Sx K), e.post.foldl rpn1 st = e.tree :: st := by
  induction e with
  | num r => intro st; rfl
  | name s => intro st; rfl
  | neg e ih =>
    intro st
    simp [Ex.post, ih, rpn1, isOp, rpnOp, top, Ex.tree]
  | bin o a b iha ihb =>
    intro st
    simp only [Ex.post, List.foldl_append, iha, ihb, List.foldl_cons, List.foldl_nil]
    cases o <;> simp [rpn1, isOp, rpnOp, top, Ex.tree, Bop.sym, Bop.head]
  | paren e ih => intro st; exact ih st

theorem parse_ideal {l : List (Tok K)} {e : Ex K} (h : Gram 1 l e) (hk : e.okIn = true) :
    rpn (shunt e.ideal) = some e.tree := by
  obtain ⟨ops, out', h1, h2, _⟩ := shunts_gram h hk [] [] (fun t ht => by simp at ht)
  have : shunt e.ideal = e.post := by
    rw [shunt, shuntL_eq, h1]
    simp only [List.append_nil]
    rw [h2]; simp
  rw [this, rpn, foldl_post]

end Verif.Curly
