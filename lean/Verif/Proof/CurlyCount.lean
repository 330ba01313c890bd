/- Helper lemmas for C154: counting operands and operators shows what cannot be read. -/
import Verif.Proof.CurlyExp

namespace Verif.Curly

variable {K : Type}

/-! ### Weights -/

mutual
/-- The sum of a weight over the atoms of an object. -/
def wt (fs : Sym → ℤ) (fa : ℤ) : Sx K → ℤ
  | .sym s => fs s
  | .num _ => fa
  | .str _ => fa
  | .vec _ => fa
  | .list l => wtL fs fa l
/-- The sum over a list. -/
def wtL (fs : Sym → ℤ) (fa : ℤ) : List (Sx K) → ℤ
  | [] => 0
  | a :: l => wt fs fa a + wtL fs fa l
end

/-- The sum over operators. -/
def wtS (fs : Sym → ℤ) : List Sym → ℤ
  | [] => 0
  | s :: l => fs s + wtS fs l

theorem wtL_append (fs : Sym → ℤ) (fa : ℤ) (a b : List (Sx K)) :
    wtL fs fa (a ++ b) = wtL fs fa a + wtL fs fa b := by
  induction a with
  | nil => simp [wtL]
  | cons x a ih => simp only [List.cons_append, wtL, ih]; ring

theorem wtL_reverse (fs : Sym → ℤ) (fa : ℤ) (a : List (Sx K)) :
    wtL fs fa a.reverse = wtL fs fa a := by
  induction a with
  | nil => rfl
  | cons x a ih => simp only [List.reverse_cons, wtL_append, ih, wtL]; ring

theorem wtL_flush (fs : Sym → ℤ) (fa : ℤ) (st : List Sym) : ∀ out : List (Sx K),
    wtL fs fa (st.foldl (fun o s => .sym s :: o) out) = wtS fs st + wtL fs fa out := by
  induction st with
  | nil => intro out; simp [wtS]
  | cons s st ih => intro out; simp only [List.foldl_cons, ih, wtL, wtS, wt]; ring

theorem wt_popLoop (fs : Sym → ℤ) (fa : ℤ) (k : Sym) (st : List Sym) : ∀ out : List (Sx K),
    wtS fs (popLoop k st out).1 + wtL fs fa (popLoop k st out).2 = wtS fs st + wtL fs fa out := by
  induction st with
  | nil => intro out; simp [popLoop]
  | cons s st ih =>
    intro out
    simp only [popLoop]
    split_ifs
    · rw [ih]; simp only [wtL, wtS, wt]; ring
    · rfl

mutual
theorem wt_shuntL (fs : Sym → ℤ) (fa : ℤ) : ∀ (l : List (Sx K)) st out,
    wtL fs fa (shuntL l st out) = wtL fs fa l + wtS fs st + wtL fs fa out
  | [], st, out => by simp only [shuntL, wtL_flush, wtL]; ring
  | k :: l, st, out => by
      simp only [shuntL, wtL]
      have h1 := wt_shunt1 fs fa k st out
      have h2 := wt_shuntL fs fa l (shunt1 k st out).1 (shunt1 k st out).2
      linarith
theorem wt_shunt1 (fs : Sym → ℤ) (fa : ℤ) : ∀ (k : Sx K) st out,
    wtS fs (shunt1 k st out).1 + wtL fs fa (shunt1 k st out).2 = wt fs fa k + wtS fs st + wtL fs fa out
  | .list l, st, out => by
      have := wt_shuntL fs fa l [] []
      simp only [shunt1, wtL_append, this, wt, wtS, wtL]; ring
  | .sym s, st, out => by
      have := wt_popLoop fs fa s st out
      simp only [shunt1]
      split_ifs
      · simp only [wtS, wt]; linarith
      · simp only [wtL, wt]; ring
  | .num r, st, out => by simp only [shunt1, wtL, wt]; ring
  | .str s, st, out => by simp only [shunt1, wtL, wt]; ring
  | .vec v, st, out => by simp only [shunt1, wtL, wt]; ring
end

theorem wt_shunt (fs : Sym → ℤ) (fa : ℤ) (l : List (Sx K)) :
    wtL fs fa (shunt l) = wtL fs fa l := by
  rw [shunt, wtL_reverse, wt_shuntL]; simp [wtS, wtL]

/-! ### The output of the shunting yard has no lists -/

/-- Not a list. -/
def Sx.atomic : Sx K → Bool
  | .list _ => false
  | _ => true

theorem atomic_flush (st : List Sym) : ∀ out : List (Sx K), (∀ a ∈ out, a.atomic = true) →
    ∀ a ∈ st.foldl (fun o s => Sx.sym s :: o) out, a.atomic = true := by
  induction st with
  | nil => intro out h; exact h
  | cons s st ih =>
    intro out h
    apply ih
    intro a ha
    rcases List.mem_cons.1 ha with rfl | ha
    · rfl
    · exact h a ha

theorem atomic_popLoop (k : Sym) (st : List Sym) : ∀ out : List (Sx K), (∀ a ∈ out, a.atomic = true) →
    ∀ a ∈ (popLoop k st out).2, a.atomic = true := by
  induction st with
  | nil => intro out h; exact h
  | cons s st ih =>
    intro out h
    simp only [popLoop]
    split_ifs
    · apply ih
      intro a ha
      rcases List.mem_cons.1 ha with rfl | ha
      · rfl
      · exact h a ha
    · exact h

mutual
theorem atomic_shuntL : ∀ (l : List (Sx K)) st out, (∀ a ∈ out, a.atomic = true) →
    ∀ a ∈ shuntL l st out, a.atomic = true
  | [], st, out => by
      intro h; simp only [shuntL]; exact atomic_flush st out h
  | k :: l, st, out => by
      intro h
      simp only [shuntL]
      exact atomic_shuntL l _ _ (atomic_shunt1 k st out h)
theorem atomic_shunt1 : ∀ (k : Sx K) st out, (∀ a ∈ out, a.atomic = true) →
    ∀ a ∈ (shunt1 k st out).2, a.atomic = true
  | .list l, st, out => by
      intro h a ha
      simp only [shunt1] at ha
      rcases List.mem_append.1 ha with ha | ha
      · exact atomic_shuntL l [] [] (by simp) a ha
      · exact h a ha
  | .sym s, st, out => by
      intro h a ha
      simp only [shunt1] at ha
      split_ifs at ha
      · exact atomic_popLoop s st out h a ha
      · rcases List.mem_cons.1 ha with rfl | ha
        · rfl
        · exact h a ha
  | .num r, st, out => by
      intro h a ha
      rcases List.mem_cons.1 ha with rfl | ha
      · rfl
      · exact h a ha
  | .str s, st, out => by
      intro h a ha
      rcases List.mem_cons.1 ha with rfl | ha
      · rfl
      · exact h a ha
  | .vec v, st, out => by
      intro h a ha
      rcases List.mem_cons.1 ha with rfl | ha
      · rfl
      · exact h a ha
end

theorem atomic_shunt (l : List (Sx K)) : ∀ a ∈ shunt l, a.atomic = true := by
  intro a ha
  rw [shunt, List.mem_reverse] at ha
  exact atomic_shuntL l [] [] (by simp) a ha

/-! ### What can be evaluated -/

/-- Operand minus operator count of a flat object. -/
def balS : Sym → ℤ
  | .neg => 0
  | .expt => 0
  | _ => -1

/-- Is it the symbol `expt`? -/
def exS : Sym → ℤ
  | .expt => 1
  | _ => 0

/-- Operands minus binary operators, ignoring structure. -/
abbrev bal : Sx K → ℤ := wt balS 1
/-- The same for a list. -/
abbrev balL : List (Sx K) → ℤ := wtL balS 1
/-- How often `expt` occurs. -/
abbrev ex : Sx K → ℤ := wt exS 0
/-- The same for a list. -/
abbrev exL : List (Sx K) → ℤ := wtL exS 0

/-- The objects the parser makes. -/
inductive Shape : Sx K → Prop
  | num (r : K) : Shape (.num r)
  | str (s : String) : Shape (.str s)
  | vec (l : List (Sx K)) : Shape (.vec l)
  | expt : Shape (.sym .expt)
  | sneg : Shape (.sym .neg)
  | nil : Shape (.list [])
  | un {a : Sx K} : Shape a → Shape (.list [.sym .sub, a])
  | bin {a b : Sx K} (s : Sym) : s ≠ .neg → Shape a → Shape b → Shape (.list [.sym s, a, b])

/-- Those of them that can be evaluated: no `nil` and no symbol among the operands. -/
inductive Clean : Sx K → Prop
  | num (r : K) : Clean (.num r)
  | str (s : String) : Clean (.str s)
  | vec (l : List (Sx K)) : Clean (.vec l)
  | un {a : Sx K} : Clean a → Clean (.list [.sym .sub, a])
  | bin {a b : Sx K} (s : Sym) : Clean a → Clean b → Clean (.list [.sym s, a, b])

/-- Operands minus binary operators of the tree. -/
def tau : Sx K → ℤ
  | .num _ => 1
  | .str _ => 1
  | .vec _ => 1
  | .sym _ => 0
  | .list [.sym _, a] => tau a
  | .list [.sym _, a, b] => tau a + tau b - 1
  | .list _ => 0

/-- The symbols among the operands of the tree. -/
def chi : Sx K → ℤ
  | .num _ => 0
  | .str _ => 0
  | .vec _ => 0
  | .sym _ => 1
  | .list [.sym _, a] => chi a
  | .list [.sym _, a, b] => chi a + chi b
  | .list _ => 0

/-- The sum of `tau`. -/
def tauL (l : List (Sx K)) : ℤ := (l.map tau).sum
/-- The sum of `chi`. -/
def chiL (l : List (Sx K)) : ℤ := (l.map chi).sum

theorem tau_top (st : List (Sx K)) : tauL st = tau (top st) + tauL st.tail := by
  cases st <;> simp [tauL, top, tau]

theorem chi_top (st : List (Sx K)) : chiL st = chi (top st) + chiL st.tail := by
  cases st <;> simp [chiL, top, chi]

theorem tau_rpn1 (st : List (Sx K)) (a : Sx K) (ha : a.atomic = true) :
    tauL (rpn1 st a) = tauL st + bal a := by
  cases a with
  | list l => simp [Sx.atomic] at ha
  | num r => simp [rpn1, tauL, tau, bal, wt]; ring
  | str r => simp [rpn1, tauL, tau, bal, wt]; ring
  | vec r => simp [rpn1, tauL, tau, bal, wt]; ring
  | sym s =>
    have h1 := tau_top st
    have h2 := tau_top st.tail
    cases s <;> simp [rpn1, isOp, rpnOp, bal, wt, balS, tauL, tau] at h1 h2 ⊢ <;> linarith

theorem chi_rpn1 (st : List (Sx K)) (a : Sx K) (ha : a.atomic = true) :
    chiL (rpn1 st a) = chiL st + ex a := by
  cases a with
  | list l => simp [Sx.atomic] at ha
  | num r => simp [rpn1, chiL, chi, ex, wt]
  | str r => simp [rpn1, chiL, chi, ex, wt]
  | vec r => simp [rpn1, chiL, chi, ex, wt]
  | sym s =>
    have h1 := chi_top st
    have h2 := chi_top st.tail
    cases s <;> simp [rpn1, isOp, rpnOp, ex, wt, exS, chiL, chi] at h1 h2 ⊢ <;> linarith

theorem foldl_rpn (w : List (Sx K)) : ∀ st, (∀ a ∈ w, a.atomic = true) →
    tauL (w.foldl rpn1 st) = tauL st + balL w ∧ chiL (w.foldl rpn1 st) = chiL st + exL w := by
  induction w with
  | nil => intro st _; simp [balL, exL, wtL]
  | cons a w ih =>
    intro st h
    have h1 := ih (rpn1 st a) (fun b hb => h b (by simp [hb]))
    have h2 := tau_rpn1 st a (h a (by simp))
    have h3 := chi_rpn1 st a (h a (by simp))
    simp only [List.foldl_cons, balL, exL, wtL, bal, ex] at *
    constructor <;> linarith [h1.1, h1.2]

theorem clean_tau {t : Sx K} (h : Clean t) : tau t = 1 ∧ chi t = 0 := by
  induction h with
  | num r => simp [tau, chi]
  | str r => simp [tau, chi]
  | vec r => simp [tau, chi]
  | un _ ih => simpa [tau, chi] using ih
  | bin s _ _ iha ihb => simp only [tau, chi]; omega

theorem rpn_clean {w : List (Sx K)} {t : Sx K} (ha : ∀ a ∈ w, a.atomic = true) (h : rpn w = some t)
    (hc : Clean t) : balL w = 1 ∧ exL w = 0 := by
  have hw := foldl_rpn w [] ha
  unfold rpn at h
  split at h
  · rename_i a heq
    simp only [Option.some.injEq] at h
    subst h
    rw [heq] at hw
    have := clean_tau hc
    simp only [tauL, chiL, List.map_cons, List.map_nil, List.sum_cons, List.sum_nil] at hw
    constructor <;> linarith [hw.1, hw.2, this.1, this.2]
  · simp at h

theorem shape_top {st : List (Sx K)} (h : ∀ a ∈ st, Shape a) : Shape (top st) := by
  cases st with
  | nil => exact .nil
  | cons a st => exact h a (by simp)

theorem shape_rpn1 {st : List (Sx K)} (h : ∀ a ∈ st, Shape a) {x : Sx K} (hx : x.atomic = true) :
    ∀ a ∈ rpn1 st x, Shape a := by
  have h1 : ∀ a ∈ st.tail, Shape a := fun a ha => h a (List.mem_of_mem_tail ha)
  have h2 : ∀ a ∈ st.tail.tail, Shape a := fun a ha => h1 a (List.mem_of_mem_tail ha)
  have t1 := shape_top h
  have t2 := shape_top h1
  intro a ha
  cases x with
  | list l => simp [Sx.atomic] at hx
  | num r => rcases List.mem_cons.1 ha with rfl | ha; exacts [.num r, h a ha]
  | str r => rcases List.mem_cons.1 ha with rfl | ha; exacts [.str r, h a ha]
  | vec r => rcases List.mem_cons.1 ha with rfl | ha; exacts [.vec r, h a ha]
  | sym s =>
    cases s <;> simp only [rpn1, isOp, rpnOp, if_true] at ha <;> rcases List.mem_cons.1 ha with rfl | ha
    all_goals first
      | exact h2 _ ha
      | exact h1 _ ha
      | exact h _ ha
      | exact .bin _ (by decide) t2 t1
      | exact .un t1
      | exact .expt

theorem shape_foldl (w : List (Sx K)) : ∀ st, (∀ a ∈ st, Shape a) → (∀ a ∈ w, a.atomic = true) →
    ∀ a ∈ w.foldl rpn1 st, Shape a := by
  induction w with
  | nil => intro st h _; exact h
  | cons x w ih =>
    intro st h hw
    exact ih _ (shape_rpn1 h (hw x (by simp))) (fun a ha => hw a (by simp [ha]))

theorem rpn_shape {w : List (Sx K)} {t : Sx K} (ha : ∀ a ∈ w, a.atomic = true) (h : rpn w = some t) :
    Shape t := by
  have hw := shape_foldl w [] (by simp) ha
  unfold rpn at h
  split at h
  · rename_i a heq
    simp only [Option.some.injEq] at h
    subst h
    exact hw a (by rw [heq]; simp)
  · simp at h

theorem ex_nonneg {t : Sx K} (h : Shape t) : 0 ≤ ex t := by
  induction h with
  | bin s _ _ _ iha ihb => cases s <;> simp [ex, wt, wtL, exS] at * <;> omega
  | un _ ih => simpa [ex, wt, wtL, exS] using ih
  | _ => simp [ex, wt, wtL, exS]

/-- Counted flat, an object is short of operands, contains `expt`, or is an evaluable object. -/
theorem shape_bal {t : Sx K} (h : Shape t) : ex t = 0 → bal t ≤ 1 ∧ (bal t = 1 → Clean t) := by
  induction h with
  | num r => intro _; exact ⟨by simp [bal, wt], fun _ => .num r⟩
  | str r => intro _; exact ⟨by simp [bal, wt], fun _ => .str r⟩
  | vec r => intro _; exact ⟨by simp [bal, wt], fun _ => .vec r⟩
  | expt => intro h; simp [ex, wt, exS] at h
  | sneg => intro _; simp [bal, wt, balS]
  | nil => intro _; simp [bal, wt, wtL]
  | un ha ih =>
    intro hx
    have := ih (by simpa [ex, wt, wtL, exS] using hx)
    simp only [bal, wt, wtL, balS] at *
    exact ⟨by omega, fun h => by omega⟩
  | bin s hs ha hb iha ihb =>
    rename_i a b
    intro hx
    have pa := ex_nonneg ha
    have pb := ex_nonneg hb
    have hse : exS s = 0 ∧ ex a = 0 ∧ ex b = 0 := by
      have : 0 ≤ exS s := by cases s <;> decide
      simp only [ex, wt, wtL] at *
      omega
    have hbs : balS s = -1 := by cases s <;> simp_all [exS, balS]
    have h1 := iha hse.2.1
    have h2 := ihb hse.2.2
    simp only [bal, wt, wtL, hbs] at *
    exact ⟨by omega, fun h => .bin s (h1.2 (by omega)) (h2.2 (by omega))⟩

/-! ### The result of an expression -/

theorem items_length (e : Ex K) : ∀ i, e.items = some i → 1 ≤ i.length := by
  induction e with
  | num r => intro i h; simp [Ex.items] at h; subst h; simp
  | name r => intro i h; simp [Ex.items] at h; subst h; simp
  | neg e ih => intro i h; simp [Ex.items] at h; obtain ⟨j, _, rfl⟩ := h; simp
  | bin o a b _ _ =>
    intro i h
    simp only [Ex.items, Option.bind_eq_some_iff, Option.map_eq_some_iff] at h
    obtain ⟨j, _, k, _, rfl⟩ := h; simp; omega
  | paren e ih =>
    intro i h
    simp only [Ex.items, Option.map_eq_some_iff] at h
    obtain ⟨j, _, rfl⟩ := h; simp

theorem exprResult_two (i : List (Sx K)) (h : 2 ≤ i.length) :
    exprResult i.reverse = rpn (shunt i) := by
  have h' : 2 ≤ i.reverse.length := by simpa using h
  have hr : i = i.reverse.reverse := by simp
  rw [hr]
  generalize i.reverse = j at h'
  match j, h' with
  | a :: b :: l, _ =>
    simp only [List.reverse_reverse, exprResult]
    cases hc : (a :: b :: l).reverse with
    | nil => simp at hc
    | cons x m => rfl

/-- For an operator at the top, the result is that of `inexp-parse`. -/
theorem result_op {e : Ex K} (he : ∀ i, e.items = some i → 2 ≤ i.length) :
    e.result = e.items.bind fun i => rpn (shunt i) := by
  cases h : e.items with
  | none => simp [Ex.result, h]
  | some i => simp [Ex.result, h, exprResult_two i (he i h)]

theorem neg_two (e : Ex K) : ∀ i, (Ex.neg e).items = some i → 2 ≤ i.length := by
  intro i h
  simp only [Ex.items, Option.map_eq_some_iff] at h
  obtain ⟨j, hj, rfl⟩ := h
  have := items_length e j hj
  simp; omega

theorem bin_two (o : Bop) (a b : Ex K) : ∀ i, (Ex.bin o a b).items = some i → 2 ≤ i.length := by
  intro i h
  simp only [Ex.items, Option.bind_eq_some_iff, Option.map_eq_some_iff] at h
  obtain ⟨j, hj, k, hk, rfl⟩ := h
  have := items_length a j hj
  simp; omega

theorem result_paren (e : Ex K) : (Ex.paren e).result = e.result := by
  unfold Ex.result
  simp only [Ex.items]
  cases h : e.items.bind fun i => exprResult i.reverse with
  | none => simp
  | some r => simp [exprResult]

theorem result_shape (e : Ex K) : ∀ r, e.result = some r → Shape r := by
  induction e with
  | num r => intro t h; simp [Ex.result, Ex.items, exprResult] at h; subst h; exact .num r
  | name r => intro t h; simp [Ex.result, Ex.items, exprResult] at h; subst h; exact .str r
  | neg e _ =>
    intro t h
    rw [result_op (neg_two e), Option.bind_eq_some_iff] at h
    obtain ⟨i, _, h⟩ := h
    exact rpn_shape (atomic_shunt i) h
  | bin o a b _ _ =>
    intro t h
    rw [result_op (bin_two o a b), Option.bind_eq_some_iff] at h
    obtain ⟨i, _, h⟩ := h
    exact rpn_shape (atomic_shunt i) h
  | paren e ih => intro t h; rw [result_paren] at h; exact ih t h

theorem tree_bal (e : Ex K) : 0 ≤ ex e.tree ∧
    (ex e.tree = 0 → bal e.tree ≤ 1 ∧ (bal e.tree = 1 → e.plain = true)) := by
  induction e with
  | num r => simp [Ex.tree, ex, bal, wt, Ex.plain]
  | name r => simp [Ex.tree, ex, bal, wt, Ex.plain]
  | neg e ih =>
    simp only [Ex.tree, ex, bal, wt, wtL, exS, balS, Ex.plain] at *
    refine ⟨by omega, fun h => ?_⟩
    have := ih.2 (by omega)
    exact ⟨by omega, fun h => by omega⟩
  | bin o a b iha ihb =>
    have hs : 0 ≤ exS o.head ∧ (exS o.head = 0 → balS o.head = -1 ∧ o ≠ .pow) := by
      cases o <;> simp [exS, Bop.head, Bop.sym, balS]
    simp only [Ex.tree, ex, bal, wt, wtL, Ex.plain] at *
    refine ⟨by omega, fun h => ?_⟩
    have h0 := hs.2 (by omega)
    have h1 := iha.2 (by omega)
    have h2 := ihb.2 (by omega)
    refine ⟨by omega, fun h => ?_⟩
    simp [h0.2, h1.2 (by omega), h2.2 (by omega)]
  | paren e ih => simpa [Ex.tree, Ex.plain] using ih

theorem gram_paren {p : Nat} {l : List (Tok K)} {e : Ex K} (h : Gram p l e) :
    ∀ {e'}, e = .paren e' → ∃ l', Gram 1 l' e' := by
  induction h with
  | paren h _ => intro e' he; cases he; exact ⟨_, h⟩
  | up4 _ ih => exact ih
  | up3 _ ih => exact ih
  | up2 _ ih => exact ih
  | _ => intro e' he; cases he

/-- The subexpressions of a well-formed expression are well-formed. -/
theorem gram_sub {p : Nat} {l : List (Tok K)} {e : Ex K} (h : Gram p l e) :
    (∀ {a}, e = .neg a → ∃ l', Gram 1 l' a) ∧
    (∀ {o a b}, e = .bin o a b → (∃ l', Gram 1 l' a) ∧ ∃ l', Gram 1 l' b) := by
  induction h with
  | neg h _ => exact ⟨fun he => by cases he; exact ⟨_, .up2 (.up3 (.up4 h))⟩, fun he => by cases he⟩
  | pow ha hb _ _ =>
    exact ⟨fun he => (by cases he), fun he => by cases he; exact ⟨⟨_, .up2 (.up3 (.up4 ha))⟩, _, .up2 (.up3 hb)⟩⟩
  | prod o _ ha hb _ _ =>
    exact ⟨fun he => (by cases he), fun he => by cases he; exact ⟨⟨_, .up2 ha⟩, _, .up2 (.up3 hb)⟩⟩
  | sum o _ ha hb _ _ =>
    exact ⟨fun he => (by cases he), fun he => by cases he; exact ⟨⟨_, ha⟩, _, .up2 hb⟩⟩
  | up4 _ ih => exact ih
  | up3 _ ih => exact ih
  | up2 _ ih => exact ih
  | _ => exact ⟨fun he => (by cases he), fun he => by cases he⟩

/-- Plain expressions have plain operands in parentheses. -/
theorem plain_okIn (e : Ex K) (h : e.plain = true) : e.okIn = true := by
  induction e with
  | num r => rfl
  | name r => rfl
  | neg e _ => simp [Ex.plain] at h
  | bin o a b iha ihb =>
    simp only [Ex.plain, Bool.and_eq_true] at h
    simp [Ex.okIn, iha h.1.2, ihb h.2]
  | paren e _ => simpa [Ex.plain, Ex.okIn] using h

theorem plain_tame (e : Ex K) (h : e.plain = true) : e.tame = true := by
  induction e with
  | paren e ih => exact ih (by simpa [Ex.plain] using h)
  | num r => rfl
  | name r => rfl
  | neg e _ => simp [Ex.plain] at h
  | bin o a b _ _ => exact plain_okIn _ h

/-- A tame expression is read as its tree, and its items are as they should be. -/
theorem result_tame (e : Ex K) : (∃ l, Gram 1 l e) →
    (e.tame = true → e.result = some e.tree) ∧ (e.okIn = true → e.items = some e.ideal) := by
  induction e with
  | num r => intro _; exact ⟨fun _ => rfl, fun _ => rfl⟩
  | name r => intro _; exact ⟨fun _ => rfl, fun _ => rfl⟩
  | paren e ih =>
    rintro ⟨l, h⟩
    have hp := ih (gram_paren h rfl)
    refine ⟨fun ht => ?_, fun hk => ?_⟩
    · rw [result_paren]; exact hp.1 ht
    · have := hp.1 (plain_tame e (by simpa [Ex.okIn] using hk))
      unfold Ex.result at this
      simp [Ex.items, Ex.ideal, this]
  | neg e ih =>
    rintro ⟨l, h⟩
    have hi : (Ex.neg e).okIn = true → (Ex.neg e).items = some (Ex.neg e).ideal := by
      intro hk
      have := (ih ((gram_sub h).1 rfl)).2 (by simpa [Ex.okIn] using hk)
      simp [Ex.items, Ex.ideal, this]
    refine ⟨fun ht => ?_, hi⟩
    have hk : (Ex.neg e).okIn = true := by simpa [Ex.tame] using ht
    rw [result_op (neg_two e), hi hk]
    exact parse_ideal h hk
  | bin o a b iha ihb =>
    rintro ⟨l, h⟩
    have hi : (Ex.bin o a b).okIn = true → (Ex.bin o a b).items = some (Ex.bin o a b).ideal := by
      intro hk
      simp only [Ex.okIn, Bool.and_eq_true] at hk
      have hs := (gram_sub h).2 rfl
      simp [Ex.items, Ex.ideal, (iha hs.1).2 hk.1, (ihb hs.2).2 hk.2]
    refine ⟨fun ht => ?_, hi⟩
    have hk : (Ex.bin o a b).okIn = true := by simpa [Ex.tame] using ht
    rw [result_op (bin_two o a b), hi hk]
    exact parse_ideal h hk

theorem shunt_clean {i : List (Sx K)} {r : Sx K} (h : rpn (shunt i) = some r) (hc : Clean r) :
    balL i = 1 ∧ exL i = 0 := by
  have := rpn_clean (atomic_shunt i) h hc
  simpa [balL, exL, wt_shunt] using this

/-- An expression whose result can be evaluated is tame. -/
theorem clean_tame (e : Ex K) : (∃ l, Gram 1 l e) →
    (∀ r, e.result = some r → Clean r → e.tame = true) ∧
    (∀ i, e.items = some i → 0 ≤ exL i ∧ (exL i = 0 → balL i ≤ 1 ∧ (balL i = 1 → e.okIn = true))) := by
  induction e with
  | num r =>
    intro _
    refine ⟨fun _ _ _ => rfl, fun i hi => ?_⟩
    simp only [Ex.items, Option.some.injEq] at hi
    subst hi
    simp [exL, balL, wtL, wt, Ex.okIn]
  | name r =>
    intro _
    refine ⟨fun _ _ _ => rfl, fun i hi => ?_⟩
    simp only [Ex.items, Option.some.injEq] at hi
    subst hi
    simp [exL, balL, wtL, wt, Ex.okIn]
  | paren e ih =>
    rintro ⟨l, h⟩
    have hg := gram_paren h rfl
    have hp := ih hg
    refine ⟨fun r hr hc => ?_, fun i hi => ?_⟩
    · rw [result_paren] at hr; exact hp.1 r hr hc
    · simp only [Ex.items, Option.map_eq_some_iff] at hi
      obtain ⟨r, hr, rfl⟩ := hi
      have hr' : e.result = some r := hr
      have hs := result_shape e r hr'
      have h0 := ex_nonneg hs
      have h1 := shape_bal hs
      simp only [exL, balL, wtL, ex, bal, add_zero] at *
      refine ⟨h0, fun hx => ⟨(h1 hx).1, fun hb => ?_⟩⟩
      have ht := hp.1 r hr' ((h1 hx).2 hb)
      have : r = e.tree := by
        have := (result_tame e hg).1 ht
        rw [hr'] at this; exact Option.some.inj this
      subst this
      simp only [Ex.okIn]
      exact ((tree_bal e).2 hx).2 hb
  | neg e ih =>
    rintro ⟨l, h⟩
    have hp := ih ((gram_sub h).1 rfl)
    have hi : ∀ i, (Ex.neg e).items = some i →
        0 ≤ exL i ∧ (exL i = 0 → balL i ≤ 1 ∧ (balL i = 1 → (Ex.neg e).okIn = true)) := by
      intro i hi
      simp only [Ex.items, Option.map_eq_some_iff] at hi
      obtain ⟨j, hj, rfl⟩ := hi
      have := hp.2 j hj
      simpa [exL, balL, wtL, wt, exS, balS, Ex.okIn] using this
    refine ⟨fun r hr hc => ?_, hi⟩
    rw [result_op (neg_two e), Option.bind_eq_some_iff] at hr
    obtain ⟨i, hi', hr⟩ := hr
    have := shunt_clean hr hc
    exact ((hi i hi').2 this.2).2 this.1
  | bin o a b iha ihb =>
    rintro ⟨l, h⟩
    have hs := (gram_sub h).2 rfl
    have ha := iha hs.1
    have hb := ihb hs.2
    have hi : ∀ i, (Ex.bin o a b).items = some i →
        0 ≤ exL i ∧ (exL i = 0 → balL i ≤ 1 ∧ (balL i = 1 → (Ex.bin o a b).okIn = true)) := by
      intro i hi
      simp only [Ex.items, Option.bind_eq_some_iff, Option.map_eq_some_iff] at hi
      obtain ⟨j, hj, k, hk, rfl⟩ := hi
      have h1 := ha.2 j hj
      have h2 := hb.2 k hk
      have hso : exS o.sym = 0 ∧ balS o.sym = -1 := by cases o <;> decide
      simp only [exL, balL, wtL_append, wtL, wt, hso.1, hso.2, Ex.okIn, Bool.and_eq_true] at *
      refine ⟨by omega, fun hx => ?_⟩
      have g1 := h1.2 (by omega)
      have g2 := h2.2 (by omega)
      exact ⟨by omega, fun hb => ⟨g1.2 (by omega), g2.2 (by omega)⟩⟩
    refine ⟨fun r hr hc => ?_, hi⟩
    rw [result_op (bin_two o a b), Option.bind_eq_some_iff] at hr
    obtain ⟨i, hi', hr⟩ := hr
    have := shunt_clean hr hc
    exact ((hi i hi').2 this.2).2 this.1

/-! ### Evaluation -/

variable [Field K] [DecidableEq K]

theorem eval_clean (pw : K → K → Option K) (defs : List (String × Val K)) {t : Sx K} (h : Shape t) :
    ∀ {v}, eval pw defs t = some v → Clean t := by
  induction h with
  | num r => intro _ _; exact .num r
  | str r => intro _ _; exact .str r
  | vec r => intro _ _; exact .vec r
  | expt => intro v hv; simp [eval] at hv
  | sneg => intro v hv; simp [eval] at hv
  | nil => intro v hv; simp [eval] at hv
  | un ha ih =>
    rename_i a
    intro v hv
    simp only [eval] at hv
    cases he : eval pw defs a with
    | none => simp [he, negate] at hv
    | some w => exact .un (ih he)
  | bin s hs ha hb iha ihb =>
    rename_i a b
    intro v hv
    have hv' : arith2 pw s (eval pw defs a) (eval pw defs b) = some v := by
      cases s <;> simpa only [eval] using hv
    cases he : eval pw defs a with
    | none => simp [he, arith2] at hv'
    | some w =>
      cases hf : eval pw defs b with
      | none => rw [he, hf] at hv'; cases w <;> simp [arith2] at hv'
      | some u => exact .bin s (iha he) (ihb hf)

omit [Field K] [DecidableEq K] in
theorem look_eq (defs : List (String × Val K)) (s : String) : look defs s = meaning defs s := by
  unfold look meaning
  induction defs with
  | nil => rfl
  | cons d defs ih =>
    obtain ⟨n, v⟩ := d
    by_cases h : n = s
    · subst h; simp [List.lookup]
    · have h' : (s == n) = false := by simpa using fun h' => h h'.symm
      have h2 : (n == s) = false := by simpa using h
      simp only [List.find?_cons, h2, List.lookup, h']
      exact ih

theorem eval_tree (pw : K → K → Option K) (defs : List (String × Val K)) (e : Ex K) :
    eval pw defs e.tree = e.value pw defs := by
  induction e with
  | num r => rfl
  | name s => simp [Ex.tree, eval, Ex.value, look_eq]
  | neg e ih =>
    simp only [Ex.tree, eval, ih, Ex.value, negate]
    split <;> simp_all
  | bin o a b iha ihb =>
    have : eval pw defs (Ex.bin o a b).tree =
        arith2 pw o.head (eval pw defs a.tree) (eval pw defs b.tree) := by
      cases o <;> simp only [Ex.tree, Bop.head, Bop.sym, eval]
    rw [this, iha, ihb, Ex.value]
    cases a.value pw defs with
    | none => simp [arith2]
    | some x =>
      cases b.value pw defs with
      | none => cases x <;> simp [arith2]
      | some y =>
        cases x <;> cases y <;> simp [arith2]
        cases o <;> simp [arith, Bop.app, Bop.head, Bop.sym]
  | paren e ih => simpa [Ex.tree, Ex.value] using ih

/-- What a well-formed expression evaluates to. -/
theorem result_eval (pw : K → K → Option K) (defs : List (String × Val K)) {l : List (Tok K)} {e : Ex K}
    (h : Gram 1 l e) :
    e.result.bind (eval pw defs) = if e.tame = true then e.value pw defs else none := by
  split_ifs with ht
  · rw [(result_tame e ⟨l, h⟩).1 ht, Option.bind_some, eval_tree]
  · cases hr : e.result with
    | none => rfl
    | some r =>
      rw [Option.bind_some]
      cases hv : eval pw defs r with
      | none => rfl
      | some v =>
        exact absurd ((clean_tame e ⟨l, h⟩).1 r hr (eval_clean pw defs (result_shape e r hr) hv)) ht

end Verif.Curly
