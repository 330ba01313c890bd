/- Helper lemmas for C154: a definition that gets a value is a well-formed expression. -/
import Verif.Proof.CurlyCount

namespace Verif.Curly

variable {K : Type}

/-- The level of an operator. -/
def Bop.lev : Bop → Nat
  | .add => 1
  | .sub => 1
  | .mul => 2
  | .div => 2
  | .pow => 3

theorem items_bin {o : Bop} {a b : Ex K} {i j : List (Sx K)} (ha : a.items = some i)
    (hb : b.items = some j) : (Ex.bin o a b).items = some (i ++ .sym o.sym :: j) := by
  simp [Ex.items, ha, hb]

theorem items_bin_inv {o : Bop} {a b : Ex K} {k : List (Sx K)} (h : (Ex.bin o a b).items = some k) :
    ∃ i j, a.items = some i ∧ b.items = some j ∧ k = i ++ .sym o.sym :: j := by
  simp only [Ex.items, Option.bind_eq_some_iff, Option.map_eq_some_iff] at h
  obtain ⟨i, hi, j, hj, rfl⟩ := h
  exact ⟨i, j, hi, hj, rfl⟩

/-- An operator and an operand may be appended to an expression. -/
theorem gram_append {p : Nat} {l : List (Tok K)} {e : Ex K} (h : Gram p l e) :
    ∀ {o : Bop} {m : List (Tok K)} {b : Ex K} {i j : List (Sx K)}, p ≤ o.lev → Gram 4 m b →
      e.items = some i → b.items = some j →
      ∃ e', Gram p (l ++ o.tok :: m) e' ∧ e'.items = some (i ++ .sym o.sym :: j) := by
  induction h with
  | num r => intro o m b i j hp; cases o <;> simp [Bop.lev] at hp
  | name r => intro o m b i j hp; cases o <;> simp [Bop.lev] at hp
  | paren _ _ => intro o m b i j hp; cases o <;> simp [Bop.lev] at hp
  | neg _ _ => intro o m b i j hp; cases o <;> simp [Bop.lev] at hp
  | pow ha hb _ ihb =>
    rename_i a0 b0 _
    intro o m b i j hp hm hi hj
    obtain ⟨i1, i2, h1, h2, rfl⟩ := items_bin_inv hi
    obtain ⟨e', g1, g2⟩ := ihb hp hm h2 hj
    refine ⟨.bin .pow a0 e', ?_, ?_⟩
    · have := Gram.pow ha g1
      simpa using this
    · rw [items_bin h1 g2]; simp
  | prod q hq ha hb _ ihb =>
    rename_i a0 b0 _
    intro o m b i j hp hm hi hj
    by_cases ho : 3 ≤ o.lev
    · obtain ⟨i1, i2, h1, h2, rfl⟩ := items_bin_inv hi
      obtain ⟨e', g1, g2⟩ := ihb ho hm h2 hj
      refine ⟨.bin q a0 e', ?_, ?_⟩
      · have := Gram.prod q hq ha g1
        simpa using this
      · rw [items_bin h1 g2]; simp
    · refine ⟨_, Gram.prod o ?_ (Gram.prod q hq ha hb) (.up4 hm), items_bin hi hj⟩
      cases o <;> simp [Bop.lev] at hp ho ⊢
  | sum q hq ha hb _ ihb =>
    rename_i a0 b0 _
    intro o m b i j hp hm hi hj
    by_cases ho : 2 ≤ o.lev
    · obtain ⟨i1, i2, h1, h2, rfl⟩ := items_bin_inv hi
      obtain ⟨e', g1, g2⟩ := ihb ho hm h2 hj
      refine ⟨.bin q a0 e', ?_, ?_⟩
      · have := Gram.sum q hq ha g1
        simpa using this
      · rw [items_bin h1 g2]; simp
    · refine ⟨_, Gram.sum o ?_ (Gram.sum q hq ha hb) (.up3 (.up4 hm)), items_bin hi hj⟩
      cases o <;> simp [Bop.lev] at hp ho ⊢
  | up4 h _ =>
    intro o m b i j hp hm hi hj
    have : o = .pow := by cases o <;> simp [Bop.lev] at hp ⊢
    subst this
    exact ⟨_, Gram.pow h (.up4 hm), items_bin hi hj⟩
  | up3 h ih =>
    intro o m b i j hp hm hi hj
    by_cases ho : 3 ≤ o.lev
    · obtain ⟨e', g1, g2⟩ := ih ho hm hi hj
      exact ⟨e', .up3 g1, g2⟩
    · refine ⟨_, Gram.prod o ?_ (.up3 h) (.up4 hm), items_bin hi hj⟩
      cases o <;> simp [Bop.lev] at hp ho ⊢
  | up2 h ih =>
    intro o m b i j hp hm hi hj
    by_cases ho : 2 ≤ o.lev
    · obtain ⟨e', g1, g2⟩ := ih ho hm hi hj
      exact ⟨e', .up2 g1, g2⟩
    · refine ⟨_, Gram.sum o ?_ (.up2 h) (.up3 (.up4 hm)), items_bin hi hj⟩
      cases o <;> simp [Bop.lev] at hp ho ⊢

/-- The tokens are an expression with these items. -/
def GoodN (l : List (Tok K)) (acc : List (Sx K)) : Prop :=
  ∃ e : Ex K, Gram 1 l e ∧ e.items = some acc.reverse

/-- The tokens become an expression with any operand. -/
def GoodV (l : List (Tok K)) (acc : List (Sx K)) : Prop :=
  ∀ (l2 : List (Tok K)) (e2 : Ex K) (i2 : List (Sx K)), Gram 4 l2 e2 → e2.items = some i2 →
    GoodN (l ++ l2) (i2.reverse ++ acc)

/-- In `expr-val`. -/
structure InvV (l : List (Tok K)) (acc : List (Sx K)) : Prop where
  ex0 : 0 ≤ exL acc
  bal0 : exL acc = 0 → balL acc ≤ 0
  one : ∀ r, acc = [r] → r = .sym .neg
  good : GoodV l acc ∨ (exL acc = 0 → balL acc ≤ -1)

/-- In `expr-next`. -/
structure InvN (l : List (Tok K)) (acc : List (Sx K)) : Prop where
  ne : acc ≠ []
  ex0 : 0 ≤ exL acc
  bal1 : exL acc = 0 → balL acc ≤ 1
  one : ∀ r, acc = [r] → Shape r
  good : GoodN l acc ∨ ((exL acc = 0 → balL acc ≤ 0) ∧ ∀ r, acc = [r] → ¬ Clean r)

/-- When the expression ends. -/
structure Ends (l : List (Tok K)) (acc : List (Sx K)) : Prop where
  shape : ∀ r, exprResult acc = some r → Shape r
  good : GoodN l acc ∨ ∀ r, exprResult acc = some r → ¬ Clean r

theorem exprResult_two' {acc : List (Sx K)} (h : 2 ≤ acc.length) :
    exprResult acc = rpn (shunt acc.reverse) := by
  have := exprResult_two acc.reverse (by simpa using h)
  simpa using this

theorem not_clean_short {acc : List (Sx K)} {r : Sx K} (h : rpn (shunt acc.reverse) = some r)
    (hb : exL acc = 0 → balL acc ≤ 0) : ¬ Clean r := by
  intro hc
  have := shunt_clean h hc
  simp only [balL, exL, wtL_reverse] at this hb
  have := hb this.2
  omega

theorem not_clean_sym (s : Sym) : ¬ Clean (Sx.sym s : Sx K) := by intro h; cases h
theorem not_clean_nil : ¬ Clean (Sx.list [] : Sx K) := by intro h; cases h

theorem InvV.ends {l : List (Tok K)} {acc : List (Sx K)} (h : InvV l acc) :
    (∀ r, exprResult acc = some r → Shape r) ∧ ∀ r, exprResult acc = some r → ¬ Clean r := by
  match acc, h with
  | [], _ =>
    constructor <;> intro r hr <;> simp only [exprResult, Option.some.injEq] at hr <;> subst hr
    exacts [.nil, not_clean_nil]
  | [a], h =>
    have := h.one a rfl
    subst this
    constructor <;> intro r hr <;> simp only [exprResult, Option.some.injEq] at hr <;> subst hr
    exacts [.sneg, not_clean_sym _]
  | a :: b :: acc, h =>
    constructor <;> intro r hr <;> rw [exprResult_two' (by simp)] at hr
    · exact rpn_shape (atomic_shunt _) hr
    · exact not_clean_short hr h.bal0

theorem InvN.ends {l : List (Tok K)} {acc : List (Sx K)} (h : InvN l acc) : Ends l acc := by
  match acc, h with
  | [], h => exact absurd rfl h.ne
  | [a], h =>
    refine ⟨?_, ?_⟩
    · intro r hr
      simp only [exprResult, Option.some.injEq] at hr
      subst hr; exact h.one _ rfl
    · rcases h.good with g | g
      · exact Or.inl g
      · right
        intro r hr
        simp only [exprResult, Option.some.injEq] at hr
        subst hr; exact g.2 _ rfl
  | a :: b :: acc, h =>
    refine ⟨?_, ?_⟩
    · intro r hr
      rw [exprResult_two' (by simp)] at hr
      exact rpn_shape (atomic_shunt _) hr
    · rcases h.good with g | g
      · exact Or.inl g
      · right
        intro r hr
        rw [exprResult_two' (by simp)] at hr
        exact not_clean_short hr g.1

/-- A new operand after `expr-val`. -/
theorem InvV.operand {l l2 : List (Tok K)} {acc : List (Sx K)} (h : InvV l acc) {r : Sx K}
    (hs : Shape r) (hg : (∃ e2 : Ex K, Gram 4 l2 e2 ∧ e2.items = some [r]) ∨ ¬ Clean r) :
    InvN (l ++ l2) (r :: acc) := by
  have e0 := ex_nonneg hs
  have b0 := shape_bal hs
  have hx := h.ex0
  have hb := h.bal0
  refine ⟨by simp, ?_, ?_, ?_, ?_⟩
  · simp only [exL, wtL, ex] at *; omega
  · intro hz
    have hz1 : ex r = 0 := by simp only [exL, wtL, ex] at *; omega
    have hz2 : exL acc = 0 := by simp only [exL, wtL, ex] at *; omega
    have := hb hz2
    have := (b0 hz1).1
    simp only [balL, wtL, bal] at *; omega
  · intro r' hr'; simp only [List.cons.injEq] at hr'; rw [← hr'.1]; exact hs
  · have hd : (exL acc = 0 → balL acc ≤ -1) →
        ((exL (r :: acc) = 0 → balL (r :: acc) ≤ 0) ∧ ∀ r', r :: acc = [r'] → ¬ Clean r') := by
      intro hd
      refine ⟨fun hz => ?_, fun r' hr' => ?_⟩
      · have hz1 : ex r = 0 := by simp only [exL, wtL, ex] at *; omega
        have hz2 : exL acc = 0 := by simp only [exL, wtL, ex] at *; omega
        have := hd hz2
        have := (b0 hz1).1
        simp only [balL, wtL, bal] at *; omega
      · simp only [List.cons.injEq] at hr'
        have := hr'.2
        subst this
        have := hd rfl
        simp [balL, wtL] at this
    rcases hg with ⟨e2, g1, g2⟩ | hc
    · rcases h.good with g | g
      · left
        have := g l2 e2 [r] g1 g2
        simpa using this
      · right; exact hd g
    · right
      refine ⟨fun hz => ?_, fun r' hr' => ?_⟩
      · have hz1 : ex r = 0 := by simp only [exL, wtL, ex] at *; omega
        have hz2 : exL acc = 0 := by simp only [exL, wtL, ex] at *; omega
        have h1 := hb hz2
        have h2 := b0 hz1
        have h3 : bal r ≠ 1 := fun h => hc (h2.2 h)
        simp only [balL, wtL, bal] at *; omega
      · simp only [List.cons.injEq] at hr'
        rw [← hr'.1]; exact hc

/-- A minus sign in `expr-val`. -/
theorem InvV.minus {l : List (Tok K)} {acc : List (Sx K)} (h : InvV l acc) :
    InvV (l ++ [.minus]) (.sym .neg :: acc) := by
  refine ⟨?_, ?_, ?_, ?_⟩
  · have := h.ex0; simpa [exL, wtL, wt, exS] using this
  · have := h.bal0; simpa [exL, balL, wtL, wt, exS, balS] using this
  · intro r hr; simp only [List.cons.injEq] at hr; exact hr.1.symm
  · rcases h.good with g | g
    · left
      intro l2 e2 i2 h2 hi
      have := g (.minus :: l2) (.neg e2) (.sym .neg :: i2) (.neg h2) (by simp [Ex.items, hi])
      simpa using this
    · right; simpa [exL, balL, wtL, wt, exS, balS] using g

/-- An operator in `expr-next`. -/
theorem InvN.op {l : List (Tok K)} {acc : List (Sx K)} (h : InvN l acc) (o : Bop) :
    InvV (l ++ [o.tok]) (.sym o.sym :: acc) := by
  have hso : exS o.sym = 0 ∧ balS o.sym = -1 := by cases o <;> decide
  have hx := h.ex0
  have hb := h.bal1
  refine ⟨?_, ?_, ?_, ?_⟩
  · simp only [exL, wtL, wt, hso.1] at *; omega
  · intro hz
    simp only [exL, balL, wtL, wt, hso.1, hso.2] at *
    have := hb (by omega); omega
  · intro r hr; simp only [List.cons.injEq] at hr; exact absurd hr.2 h.ne
  · rcases h.good with ⟨e, g1, g2⟩ | g
    · left
      intro l2 e2 i2 h2 hi
      obtain ⟨e', q1, q2⟩ := gram_append g1 (o := o) (by cases o <;> decide) h2 g2 hi
      exact ⟨e', by simpa using q1, by simpa using q2⟩
    · right
      intro hz
      simp only [exL, balL, wtL, wt, hso.1, hso.2] at *
      have := g.1 (by omega); omega

/-- The start of an expression. -/
theorem invV_nil : InvV ([] : List (Tok K)) [] := by
  refine ⟨by simp [exL, wtL], by simp [balL, wtL], by simp, Or.inl ?_⟩
  intro l2 e2 i2 h2 hi
  exact ⟨e2, by simpa using (Gram.up2 (.up3 (.up4 h2))), by simpa using hi⟩

/-- The tokens read so far. -/
def pre : List (List (Tok K) × List (Sx K)) → List (Tok K) → List (Tok K)
  | [], l => l
  | f :: F, l => pre F (f.1 ++ .lpar :: l)

theorem pre_append (F : List (List (Tok K) × List (Sx K))) : ∀ l m, pre F l ++ m = pre F (l ++ m) := by
  induction F with
  | nil => intro l m; rfl
  | cons f F ih => intro l m; simp [pre, ih]

variable [Field K] [DecidableEq K]

/-- What is to be shown of a state. -/
def Refuses (pw : K → K → Option K) (defs : List (String × Val K)) (l ts : List (Tok K)) (s : St K) : Prop :=
  ∀ r rest v, run s ts = some ([r], rest) → eval pw defs r = some v →
    ∃ l' e, l ++ ts = l' ++ .semi :: rest ∧ Gram 1 l' (e : Ex K)

theorem refuses_go {pw : K → K → Option K} {defs : List (String × Val K)} {l ts : List (Tok K)}
    {t : Tok K} {s s' : St K} (hs : step s t = some (.go s')) (h : Refuses pw defs (l ++ [t]) ts s') :
    Refuses pw defs l (t :: ts) s := by
  intro r rest v hr hv
  rw [run_go hs] at hr
  obtain ⟨l', e, h1, h2⟩ := h r rest v hr hv
  exact ⟨l', e, by simpa using h1, h2⟩

theorem refuses_finish {pw : K → K → Option K} {defs : List (String × Val K)} {l ts : List (Tok K)}
    {t : Tok K} {acc : List (Sx K)} {F : List (List (Tok K) × List (Sx K))} {s : St K}
    (hs : step s t = finish acc (F.map Prod.snd) .defn t) (he : Ends l acc)
    (hF : ∀ f ∈ F, InvV f.1 f.2)
    (ih : ∀ l acc (F : List (List (Tok K) × List (Sx K))), InvN l acc → (∀ f ∈ F, InvV f.1 f.2) →
      Refuses pw defs (pre F l) ts (.next acc (F.map Prod.snd) .defn)) :
    Refuses pw defs (pre F l) (t :: ts) s := by
  cases hr : exprResult acc with
  | none =>
    intro r rest v h hv
    simp [run, hs, finish, hr] at h
  | some r0 =>
    have hshape := he.shape r0 hr
    cases F with
    | nil =>
      intro r rest v h hv
      have hsemi : t = .semi := by
        cases t <;> simp [run, hs, finish, hr, ret] at h ⊢
      subst hsemi
      simp only [run, hs, finish, hr, ret, List.map_nil, Option.bind_some, Option.some.injEq,
        Prod.mk.injEq, List.cons.injEq, and_true] at h
      obtain ⟨rfl, rfl⟩ := h
      rcases he.good with ⟨e, g1, _⟩ | g
      · exact ⟨l, e, rfl, g1⟩
      · exact absurd (eval_clean pw defs hshape hv) (g r0 hr)
    | cons f F =>
      by_cases ht : t = .rpar
      · subst ht
        refine refuses_go (s' := .next (r0 :: f.2) (F.map Prod.snd) .defn) ?_ ?_
        · rw [hs]; simp [finish, hr]
        · rw [pre_append]
          have hn : InvN (f.1 ++ (.lpar :: (l ++ [.rpar]))) (r0 :: f.2) := by
            refine (hF f (by simp)).operand hshape ?_
            rcases he.good with ⟨e, g1, g2⟩ | g
            · left
              refine ⟨.paren e, .paren g1, ?_⟩
              simp [Ex.items, g2, hr]
            · right; exact g r0 hr
          have := ih _ _ F hn (fun g hg => hF g (by simp [hg]))
          simpa [pre] using this
      · intro r rest v h hv
        exfalso
        cases t <;> first | exact ht rfl | simp [run, hs, finish, hr] at h

theorem refuses_all (pw : K → K → Option K) (defs : List (String × Val K)) (ts : List (Tok K)) :
    (∀ l acc (F : List (List (Tok K) × List (Sx K))), InvV l acc → (∀ f ∈ F, InvV f.1 f.2) →
      Refuses pw defs (pre F l) ts (.val acc (F.map Prod.snd) .defn)) ∧
    (∀ l acc (F : List (List (Tok K) × List (Sx K))), InvN l acc → (∀ f ∈ F, InvV f.1 f.2) →
      Refuses pw defs (pre F l) ts (.next acc (F.map Prod.snd) .defn)) := by
  induction ts with
  | nil => constructor <;> intro l acc F _ _ r rest v h <;> simp [run] at h
  | cons t ts ih =>
    refine ⟨?_, ?_⟩
    · intro l acc F hI hF
      have hend : Ends l acc := ⟨hI.ends.1, Or.inr hI.ends.2⟩
      cases t with
      | num r =>
        refine refuses_go (s' := .next (.num r :: acc) (F.map Prod.snd) .defn) rfl ?_
        rw [pre_append]
        exact ih.2 _ _ F (hI.operand (.num r) (Or.inl ⟨.num r, .num r, rfl⟩)) hF
      | name r =>
        refine refuses_go (s' := .next (.str r :: acc) (F.map Prod.snd) .defn) rfl ?_
        rw [pre_append]
        exact ih.2 _ _ F (hI.operand (.str r) (Or.inl ⟨.name r, .name r, rfl⟩)) hF
      | minus =>
        refine refuses_go (s' := .val (.sym .neg :: acc) (F.map Prod.snd) .defn) rfl ?_
        rw [pre_append]
        exact ih.1 _ _ F hI.minus hF
      | lpar =>
        refine refuses_go (s' := .val [] (acc :: F.map Prod.snd) .defn) rfl ?_
        rw [pre_append]
        have := ih.1 [] [] ((l, acc) :: F) invV_nil (by
          intro f hf
          rcases List.mem_cons.1 hf with rfl | hf
          · exact hI
          · exact hF f hf)
        simpa [pre] using this
      | string s => exact refuses_finish rfl hend hF ih.2
      | add => exact refuses_finish rfl hend hF ih.2
      | mul => exact refuses_finish rfl hend hF ih.2
      | div => exact refuses_finish rfl hend hF ih.2
      | pow => exact refuses_finish rfl hend hF ih.2
      | rpar => exact refuses_finish rfl hend hF ih.2
      | lbr => exact refuses_finish rfl hend hF ih.2
      | rbr => exact refuses_finish rfl hend hF ih.2
      | comma => exact refuses_finish rfl hend hF ih.2
      | semi => exact refuses_finish rfl hend hF ih.2
      | other => exact refuses_finish rfl hend hF ih.2
    · intro l acc F hI hF
      have hop : ∀ o : Bop, Refuses pw defs (pre F l) (o.tok :: ts) (.next acc (F.map Prod.snd) .defn) := by
        intro o
        refine refuses_go (step_next_op o _ _ _) ?_
        rw [pre_append]
        exact ih.1 _ _ F (hI.op o) hF
      cases t with
      | add => exact hop .add
      | mul => exact hop .mul
      | div => exact hop .div
      | pow => exact hop .pow
      | minus => exact hop .sub
      | num r => exact refuses_finish rfl hI.ends hF ih.2
      | name r => exact refuses_finish rfl hI.ends hF ih.2
      | string s => exact refuses_finish rfl hI.ends hF ih.2
      | lpar => exact refuses_finish rfl hI.ends hF ih.2
      | rpar => exact refuses_finish rfl hI.ends hF ih.2
      | lbr => exact refuses_finish rfl hI.ends hF ih.2
      | rbr => exact refuses_finish rfl hI.ends hF ih.2
      | comma => exact refuses_finish rfl hI.ends hF ih.2
      | semi => exact refuses_finish rfl hI.ends hF ih.2
      | other => exact refuses_finish rfl hI.ends hF ih.2

/-! ### Statements and arrays -/

omit [Field K] [DecidableEq K] in
theorem nonnil_rpn1 {st : List (Sx K)} (h : ∀ a ∈ st, a ≠ Sx.list []) {x : Sx K} (hx : x.atomic = true) :
    ∀ a ∈ rpn1 st x, a ≠ Sx.list [] := by
  have h1 : ∀ a ∈ st.tail, a ≠ Sx.list [] := fun a ha => h a (List.mem_of_mem_tail ha)
  have h2 : ∀ a ∈ st.tail.tail, a ≠ Sx.list [] := fun a ha => h1 a (List.mem_of_mem_tail ha)
  intro a ha
  cases x with
  | list l => simp [Sx.atomic] at hx
  | num r => rcases List.mem_cons.1 ha with rfl | ha; exacts [by simp, h a ha]
  | str r => rcases List.mem_cons.1 ha with rfl | ha; exacts [by simp, h a ha]
  | vec r => rcases List.mem_cons.1 ha with rfl | ha; exacts [by simp, h a ha]
  | sym s =>
    cases s <;> simp only [rpn1, isOp, rpnOp, if_true] at ha <;> rcases List.mem_cons.1 ha with rfl | ha
    all_goals first
      | exact h2 _ ha
      | exact h1 _ ha
      | exact h _ ha
      | simp

omit [Field K] [DecidableEq K] in
theorem nonnil_foldl (w : List (Sx K)) : ∀ st, (∀ a ∈ st, a ≠ Sx.list []) → (∀ a ∈ w, a.atomic = true) →
    ∀ a ∈ w.foldl rpn1 st, a ≠ Sx.list [] := by
  induction w with
  | nil => intro st h _; exact h
  | cons x w ih =>
    intro st h hw
    exact ih _ (nonnil_rpn1 h (hw x (by simp))) (fun a ha => hw a (by simp [ha]))

omit [Field K] [DecidableEq K] in
theorem rpn_nonnil {w : List (Sx K)} {t : Sx K} (ha : ∀ a ∈ w, a.atomic = true) (h : rpn w = some t) :
    t ≠ .list [] := by
  have hw := nonnil_foldl w [] (by simp) ha
  unfold rpn at h
  split at h
  · rename_i a heq
    simp only [Option.some.injEq] at h
    subst h
    exact hw a (by rw [heq]; simp)
  · simp at h

omit [Field K] [DecidableEq K] in
theorem result_nonnil (e : Ex K) : ∀ r, e.result = some r → r ≠ .list [] := by
  induction e with
  | num r => intro t h; simp [Ex.result, Ex.items, exprResult] at h; subst h; simp
  | name r => intro t h; simp [Ex.result, Ex.items, exprResult] at h; subst h; simp
  | neg e _ =>
    intro t h
    rw [result_op (neg_two e), Option.bind_eq_some_iff] at h
    obtain ⟨i, _, h⟩ := h
    exact rpn_nonnil (atomic_shunt i) h
  | bin o a b _ _ =>
    intro t h
    rw [result_op (bin_two o a b), Option.bind_eq_some_iff] at h
    obtain ⟨i, _, h⟩ := h
    exact rpn_nonnil (atomic_shunt i) h
  | paren e ih => intro t h; rw [result_paren] at h; exact ih t h

/-- What a finished expression gives to its caller. -/
def handOn (ts : List (Tok K)) (k : Kont K) (t : Tok K) : Option (Sx K) → Option (List (Sx K) × List (Tok K))
  | none => none
  | some r => match ret r t k with
      | none => none
      | some (.done items) => some (items, ts)
      | some (.go s') => run s' ts

omit [Field K] [DecidableEq K] in
theorem run_expr {l : List (Tok K)} {e : Ex K} (h : Gram 1 l e) (k : Kont K) (t : Tok K)
    (ts : List (Tok K)) (ht : t = .semi ∨ t = .comma ∨ t = .rbr) :
    run (.val [] [] k) (l ++ t :: ts) = handOn ts k t e.result := by
  rw [run_gram h]
  cases hi : e.items with
  | none => simp [contNext, Ex.result, hi, handOn]
  | some i =>
    have hs : step (.next (i.reverse ++ []) [] k) t = finish i.reverse [] k t := by
      rcases ht with rfl | rfl | rfl <;> simp [step]
    simp only [contNext, run, hs, Ex.result, hi, Option.bind_some, finish]
    cases hr : exprResult i.reverse with
    | none => simp [handOn]
    | some r => simp only [Option.bind_some, handOn]; rfl

/-- The first token of an expression. -/
def Tok.starts : Tok K → Bool
  | .num _ => true
  | .name _ => true
  | .minus => true
  | .lpar => true
  | _ => false

omit [Field K] [DecidableEq K] in
theorem gram_first {p : Nat} {l : List (Tok K)} {e : Ex K} (h : Gram p l e) :
    ∃ t l', l = t :: l' ∧ t.starts = true := by
  induction h with
  | num r => exact ⟨_, _, rfl, rfl⟩
  | name r => exact ⟨_, _, rfl, rfl⟩
  | paren _ _ => exact ⟨_, _, rfl, rfl⟩
  | neg _ _ => exact ⟨_, _, rfl, rfl⟩
  | pow _ _ iha _ => obtain ⟨t, l', rfl, h⟩ := iha; exact ⟨t, _, rfl, h⟩
  | prod _ _ _ _ iha _ => obtain ⟨t, l', rfl, h⟩ := iha; exact ⟨t, _, rfl, h⟩
  | sum _ _ _ _ iha _ => obtain ⟨t, l', rfl, h⟩ := iha; exact ⟨t, _, rfl, h⟩
  | up4 _ ih => exact ih
  | up3 _ ih => exact ih
  | up2 _ ih => exact ih

omit [Field K] [DecidableEq K] in
theorem step_one (a : Sx K) (t : Tok K) (ht : t ≠ .minus) :
    step (.next [a] [] .stmt) t = bodyStatement [a] t := by
  cases t <;> first | exact absurd rfl ht | rfl

omit [Field K] [DecidableEq K] in
theorem run_one (a : Sx K) (ts : List (Tok K)) (ht : ts.head? ≠ some .minus) :
    run (.next [a] [] .stmt) ts = run (.body [a]) ts := by
  cases ts with
  | nil => rfl
  | cons t ts => simp only [run, step_one a t (fun h => ht (by simp [h]))]; rfl

end Verif.Curly
