/-
Lemmas for C155: normalised terms, the map of constraints, the bounds of variables, the matrix.
-/
import Verif.Prop.OptExpSpec
import Mathlib.Algebra.Order.Field.Basic
import Mathlib.Algebra.BigOperators.Group.Finset.Piecewise
import Mathlib.Tactic.Ring
import Mathlib.Tactic.Linarith

set_option linter.unusedSectionVars false

namespace Verif.OptExp

variable {V K : Type} [LinearOrder V] [Field K] [LinearOrder K]

/-- The value of normalised terms. -/
def nlin (m : List (V × K)) (x : V → K) : K := (m.map fun t => t.2 * x t.1).sum

theorem ins_nlin (v : V) (f : K) (x : V → K) (m : List (V × K)) :
    nlin (ins v f m) x = f * x v + nlin m x := by
  induction m with
  | nil => simp [ins, nlin]
  | cons t m ih =>
      obtain ⟨w, g⟩ := t
      simp only [ins]
      split_ifs with h1 h2
      · simp [nlin]
      · subst h2; simp only [nlin, List.map_cons, List.sum_cons]; ring
      · simp only [nlin, List.map_cons, List.sum_cons] at ih ⊢; rw [ih]; ring

theorem ins_mem (v w : V) (f : K) (m : List (V × K)) :
    w ∈ (ins v f m).map Prod.fst ↔ w = v ∨ w ∈ m.map Prod.fst := by
  induction m with
  | nil => simp [ins]
  | cons t m ih =>
      obtain ⟨u, g⟩ := t
      simp only [ins]
      split_ifs with h1 h2
      · simp
      · subst h2; simp
      · simp only [List.map_cons, List.mem_cons, ih]; tauto

theorem ins_sorted (v : V) (f : K) (m : List (V × K)) (h : (m.map Prod.fst).Pairwise (· < ·)) :
    ((ins v f m).map Prod.fst).Pairwise (· < ·) := by
  induction m with
  | nil => simp [ins]
  | cons t m ih =>
      obtain ⟨u, g⟩ := t
      simp only [List.map_cons, List.pairwise_cons] at h
      simp only [ins]
      split_ifs with h1 h2
      · simp only [List.map_cons, List.pairwise_cons, List.mem_cons]
        refine ⟨?_, h⟩
        rintro a (rfl | ha)
        · exact h1
        · exact lt_trans h1 (h.1 a ha)
      · simpa using h
      · simp only [List.map_cons, List.pairwise_cons]
        refine ⟨fun a ha => ?_, ih h.2⟩
        rcases (ins_mem _ _ _ _).1 ha with rfl | ha
        · exact lt_of_le_of_ne (not_lt.1 h1) (Ne.symm h2)
        · exact h.1 a ha

theorem fold_nlin (x : V → K) (terms : List (K × V)) (m : List (V × K)) :
    nlin (terms.foldl (fun m t => ins t.2 t.1 m) m) x = nlin m x + lin terms x := by
  induction terms generalizing m with
  | nil => simp [lin]
  | cons t ts ih =>
      rw [List.foldl_cons, ih, ins_nlin]
      simp only [lin, List.map_cons, List.sum_cons]; ring

theorem fold_mem (v : V) (terms : List (K × V)) (m : List (V × K)) :
    v ∈ (terms.foldl (fun m t => ins t.2 t.1 m) m).map Prod.fst ↔
      v ∈ m.map Prod.fst ∨ ∃ t ∈ terms, t.2 = v := by
  induction terms generalizing m with
  | nil => simp
  | cons t ts ih =>
      rw [List.foldl_cons, ih, ins_mem]
      simp only [List.mem_cons, exists_eq_or_imp, eq_comm (a := v)]; tauto

theorem fold_sorted (terms : List (K × V)) (m : List (V × K)) (h : (m.map Prod.fst).Pairwise (· < ·)) :
    ((terms.foldl (fun m t => ins t.2 t.1 m) m).map Prod.fst).Pairwise (· < ·) := by
  induction terms generalizing m with
  | nil => exact h
  | cons t ts ih => rw [List.foldl_cons]; exact ih _ (ins_sorted _ _ _ h)

theorem norm_nlin (x : V → K) (terms : List (K × V)) : nlin (normTerms terms) x = lin terms x := by
  rw [normTerms, fold_nlin]; simp [nlin]

theorem norm_mem (v : V) (terms : List (K × V)) :
    v ∈ (normTerms terms).map Prod.fst ↔ ∃ t ∈ terms, t.2 = v := by
  simp only [normTerms, fold_mem]; simp

theorem fold_single (v : V) (terms : List (K × V)) (h : ∀ t ∈ terms, t.2 = v) (g : K) :
    terms.foldl (fun m t => ins t.2 t.1 m) [(v, g)] = [(v, g + (terms.map Prod.fst).sum)] := by
  induction terms generalizing g with
  | nil => simp
  | cons t ts ih =>
      have hv := h t (by simp)
      rw [List.foldl_cons]
      simp only [hv, ins, lt_irrefl, if_false, if_true]
      rw [ih (fun u hu => h u (by simp [hu]))]
      simp only [List.map_cons, List.sum_cons]; congr 2; ring

theorem norm_only (c : Cstr V K) (v : V) (h : c.Only v) : normTerms c.terms = [(v, c.factor)] := by
  obtain ⟨h0, h1⟩ := h
  unfold Cstr.factor normTerms
  cases hc : c.terms with
  | nil => exact absurd hc h0
  | cons t ts =>
      rw [hc] at h1
      have := h1 t (by simp)
      rw [List.foldl_cons]
      simp only [ins, this]
      rw [fold_single v ts (fun u hu => h1 u (by simp [hu]))]
      simp

theorem only_of_norm (c : Cstr V K) (v : V) (f : K) (h : normTerms c.terms = [(v, f)]) :
    c.Only v ∧ c.factor = f := by
  have hm := fun w => norm_mem w c.terms
  rw [h] at hm
  have ho : c.Only v := by
    refine ⟨fun h0 => ?_, fun t ht => ?_⟩
    · have := (hm v).1 (by simp); rw [h0] at this; simp at this
    · have := (hm t.2).2 ⟨t, ht, rfl⟩; simpa using this
  refine ⟨ho, ?_⟩
  have := norm_only c v ho
  rw [h] at this; simpa using this.symm

/-! ### Variables -/

theorem insVar_mem (v w : V) (m : List V) : w ∈ insVar v m ↔ w = v ∨ w ∈ m := by
  induction m with
  | nil => simp [insVar]
  | cons u m ih =>
      simp only [insVar]
      split_ifs with h1 h2
      · simp
      · subst h2; simp
      · simp only [List.mem_cons, ih]; tauto

theorem insVar_sorted (v : V) (m : List V) (h : m.Pairwise (· < ·)) : (insVar v m).Pairwise (· < ·) := by
  induction m with
  | nil => simp [insVar]
  | cons u m ih =>
      simp only [List.pairwise_cons] at h
      simp only [insVar]
      split_ifs with h1 h2
      · simp only [List.pairwise_cons, List.mem_cons]
        refine ⟨?_, h⟩
        rintro a (rfl | ha)
        · exact h1
        · exact lt_trans h1 (h.1 a ha)
      · simpa using h
      · simp only [List.pairwise_cons]
        refine ⟨fun a ha => ?_, ih h.2⟩
        rcases (insVar_mem _ _ _).1 ha with rfl | ha
        · exact lt_of_le_of_ne (not_lt.1 h1) (Ne.symm h2)
        · exact h.1 a ha

theorem vars_mem (ts : List (V × K)) (s : List V) (w : V) :
    w ∈ ts.foldl (fun s t => insVar t.1 s) s ↔ w ∈ s ∨ w ∈ ts.map Prod.fst := by
  induction ts generalizing s with
  | nil => simp
  | cons t ts ih => rw [List.foldl_cons, ih, insVar_mem]; simp only [List.map_cons, List.mem_cons]; tauto

theorem vars_sorted (ts : List (V × K)) (s : List V) (h : s.Pairwise (· < ·)) :
    (ts.foldl (fun s t => insVar t.1 s) s).Pairwise (· < ·) := by
  induction ts generalizing s with
  | nil => exact h
  | cons t ts ih => rw [List.foldl_cons]; exact ih _ (insVar_sorted _ _ h)

/-! ### Constraints -/

/-- A value lies within the bounds of a normalised constraint. -/
def Nc.In (nc : Nc V K) (s : K) : Prop := (∀ l, nc.lower = some l → l ≤ s) ∧ ∀ u, nc.upper = some u → s ≤ u

/-- The relation on values. -/
def Rel.On (r : Rel) (s b : K) : Prop :=
  match r with
  | .le => s ≤ b
  | .ge => b ≤ s
  | .eq => s = b

theorem upd_spec (nc nc' : Nc V K) (r : Rel) (b : K) (h : upd nc r b = some nc') :
    nc'.terms = nc.terms ∧ (∀ s, nc'.In s ↔ nc.In s ∧ r.On s b) ∧
    (nc'.lower.isSome ↔ nc.lower.isSome ∨ r = .ge ∨ r = .eq) ∧
    (nc'.upper.isSome ↔ nc.upper.isSome ∨ r = .le ∨ r = .eq) := by
  obtain ⟨lo, up, ts⟩ := nc
  cases r with
  | le =>
      simp only [upd, Option.some.injEq] at h; subst h
      cases up <;> simp [updLe, Nc.In, Rel.On] <;> tauto
  | ge =>
      simp only [upd, Option.some.injEq] at h; subst h
      cases lo <;> simp [updGe, Nc.In, Rel.On] <;> tauto
  | eq =>
      simp only [upd, Option.bind_eq_some_iff, Option.map_eq_some_iff] at h
      obtain ⟨l, hl, u, hu, rfl⟩ := h
      have e1 : l = some b ∧ (lo = none ∨ lo = some b) := by
        cases lo with
        | none => simp [updEq] at hl; simp [← hl]
        | some c =>
            simp only [updEq] at hl
            split_ifs at hl with hc
            simp at hl; simp [← hl, hc]
      have e2 : u = some b ∧ (up = none ∨ up = some b) := by
        cases up with
        | none => simp [updEq] at hu; simp [← hu]
        | some c =>
            simp only [updEq] at hu
            split_ifs at hu with hc
            simp at hu; simp [← hu, hc]
      obtain ⟨rfl, e1⟩ := e1
      obtain ⟨rfl, e2⟩ := e2
      refine ⟨rfl, fun s => ?_, by simp, by simp⟩
      rcases e1 with rfl | rfl <;> rcases e2 with rfl | rfl <;> simp only [Nc.In, Rel.On, Option.some.injEq,
        reduceCtorEq, false_imp_iff, implies_true, true_and, and_true, forall_eq'] <;> grind

theorem holds_on (c : Cstr V K) (x : V → K) : c.Holds x ↔ c.rel.On (lin c.terms x) c.rhs := by
  unfold Cstr.Holds Rel.On; cases c.rel <;> rfl

/-- What holds of the map after some constraints. -/
structure Inv (cs : List (Cstr V K)) (oe : Oe V K) : Prop where
  holds : ∀ x : V → K, (∀ c ∈ cs, c.Holds x) ↔ ∀ nc ∈ oe.cons, nc.In (nlin nc.terms x)
  nodup : oe.cons.Pairwise (fun a b => a.terms ≠ b.terms)
  has : ∀ c ∈ cs, ∃ nc ∈ oe.cons, nc.terms = normTerms c.terms
  from_ : ∀ nc ∈ oe.cons, ∃ c ∈ cs, nc.terms = normTerms c.terms
  lower : ∀ nc ∈ oe.cons, (nc.lower.isSome ↔ ∃ c ∈ cs, normTerms c.terms = nc.terms ∧ (c.rel = .ge ∨ c.rel = .eq))
  upper : ∀ nc ∈ oe.cons, (nc.upper.isSome ↔ ∃ c ∈ cs, normTerms c.terms = nc.terms ∧ (c.rel = .le ∨ c.rel = .eq))
  vars : ∀ v, v ∈ oe.vars ↔ ∃ c ∈ cs, ∃ t ∈ c.terms, t.2 = v
  sorted : oe.vars.Pairwise (· < ·)

theorem uniq {L : List (Nc V K)} (h : L.Pairwise (fun a b => a.terms ≠ b.terms)) {a b : Nc V K}
    (ha : a ∈ L) (hb : b ∈ L) (e : a.terms = b.terms) : a = b := by
  induction L with
  | nil => simp at ha
  | cons c L ih =>
      simp only [List.pairwise_cons] at h
      simp only [List.mem_cons] at ha hb
      rcases ha with rfl | ha <;> rcases hb with rfl | hb
      · rfl
      · exact absurd e (h.1 b hb)
      · exact absurd e.symm (h.1 a ha)
      · exact ih h.2 ha hb

theorem find_spec (L : List (Nc V K)) (ts : List (V × K)) :
    (find L ts ∈ L ∧ (find L ts).terms = ts) ∨
    ((∀ nc ∈ L, nc.terms ≠ ts) ∧ find L ts = ⟨none, none, ts⟩) := by
  unfold find
  cases h : L.find? (fun c => decide (c.terms = ts)) with
  | none =>
      right
      refine ⟨fun nc hnc => ?_, rfl⟩
      have := List.find?_eq_none.1 h nc hnc
      simpa using this
  | some nc =>
      left
      exact ⟨List.mem_of_find?_eq_some h, by simpa using List.find?_some h⟩

theorem add_inv (cs : List (Cstr V K)) (oe oe' : Oe V K) (c : Cstr V K) (hi : Inv cs oe)
    (h : addConstraint oe c = some oe') : Inv (cs ++ [c]) oe' := by
  simp only [addConstraint, Option.map_eq_some_iff] at h
  obtain ⟨nc, hu, rfl⟩ := h
  obtain ⟨ht, hin, hlo, hup⟩ := upd_spec _ _ _ _ hu
  have hf := find_spec oe.cons (normTerms c.terms)
  have hft : (find oe.cons (normTerms c.terms)).terms = normTerms c.terms := by
    rcases hf with h | h
    · exact h.2
    · rw [h.2]
  rw [hft] at ht
  have hmem : ∀ d, d ∈ oe.cons.filter (fun d => decide (d.terms ≠ normTerms c.terms)) ++ [nc] ↔
      (d ∈ oe.cons ∧ d.terms ≠ normTerms c.terms) ∨ d = nc := by
    intro d; simp
  constructor
  · intro x
    have e1 : (∀ d ∈ cs ++ [c], d.Holds x) ↔ (∀ d ∈ cs, d.Holds x) ∧ c.Holds x := by
      simp only [List.mem_append, List.mem_singleton]
      constructor
      · intro h; exact ⟨fun d hd => h d (Or.inl hd), h c (Or.inr rfl)⟩
      · rintro ⟨h1, h2⟩ d (hd | rfl)
        · exact h1 d hd
        · exact h2
    rw [e1, hi.holds x, holds_on]
    simp only [hmem]
    constructor
    · rintro ⟨h1, h2⟩ d (⟨hd, -⟩ | rfl)
      · exact h1 d hd
      · rw [hin, ht, norm_nlin]
        refine ⟨?_, h2⟩
        rcases hf with ⟨hf1, hf2⟩ | ⟨hf1, hf2⟩
        · have := h1 _ hf1; rw [hf2, norm_nlin] at this; exact this
        · rw [hf2]; simp [Nc.In]
    · intro h
      have hn := h nc (Or.inr rfl)
      rw [hin, ht, norm_nlin] at hn
      refine ⟨fun d hd => ?_, hn.2⟩
      by_cases hdt : d.terms = normTerms c.terms
      · rcases hf with ⟨hf1, hf2⟩ | ⟨hf1, hf2⟩
        · have := uniq hi.nodup hd hf1 (hdt.trans hf2.symm)
          rw [hdt, norm_nlin, this]; exact hn.1
        · exact absurd hdt (hf1 d hd)
      · exact h d (Or.inl ⟨hd, hdt⟩)
  · refine List.pairwise_append.2 ⟨hi.nodup.filter _, by simp, ?_⟩
    intro a ha b hb
    simp only [List.mem_singleton] at hb
    subst hb
    rw [ht]
    simpa using (List.mem_filter.1 ha).2
  · intro d hd
    simp only [hmem]
    by_cases hdt : normTerms d.terms = normTerms c.terms
    · exact ⟨nc, Or.inr rfl, by rw [ht, hdt]⟩
    · simp only [List.mem_append, List.mem_singleton] at hd
      rcases hd with hd | rfl
      · obtain ⟨e, he, het⟩ := hi.has d hd
        exact ⟨e, Or.inl ⟨he, by rw [het]; exact hdt⟩, het⟩
      · exact absurd rfl hdt
  · intro d hd
    rcases (hmem d).1 hd with ⟨h1, -⟩ | rfl
    · obtain ⟨e, he, h2⟩ := hi.from_ d h1
      exact ⟨e, by simp [he], h2⟩
    · exact ⟨c, by simp, ht⟩
  · intro d hd
    rcases (hmem d).1 hd with ⟨h1, h2⟩ | rfl
    · rw [hi.lower d h1]
      constructor
      · rintro ⟨e, he, h3⟩; exact ⟨e, by simp [he], h3⟩
      · rintro ⟨e, he, h3, h4⟩
        simp only [List.mem_append, List.mem_singleton] at he
        rcases he with he | rfl
        · exact ⟨e, he, h3, h4⟩
        · exact absurd h3.symm h2
    · rw [hlo, ht]
      have : (find oe.cons (normTerms c.terms)).lower.isSome ↔
          ∃ e ∈ cs, normTerms e.terms = normTerms c.terms ∧ (e.rel = .ge ∨ e.rel = .eq) := by
        rcases hf with ⟨hf1, hf2⟩ | ⟨hf1, hf2⟩
        · rw [hi.lower _ hf1, hf2]
        · rw [hf2]
          simp only [Option.isSome_none, Bool.false_eq_true, false_iff]
          rintro ⟨e, he, h3, -⟩
          obtain ⟨g, hg, h4⟩ := hi.has e he
          exact hf1 g hg (h4.trans h3)
      rw [this]
      constructor
      · rintro (⟨e, he, h3⟩ | h3)
        · exact ⟨e, by simp [he], h3⟩
        · exact ⟨c, by simp, rfl, h3⟩
      · rintro ⟨e, he, h3, h4⟩
        simp only [List.mem_append, List.mem_singleton] at he
        rcases he with he | rfl
        · exact Or.inl ⟨e, he, h3, h4⟩
        · exact Or.inr h4
  · intro d hd
    rcases (hmem d).1 hd with ⟨h1, h2⟩ | rfl
    · rw [hi.upper d h1]
      constructor
      · rintro ⟨e, he, h3⟩; exact ⟨e, by simp [he], h3⟩
      · rintro ⟨e, he, h3, h4⟩
        simp only [List.mem_append, List.mem_singleton] at he
        rcases he with he | rfl
        · exact ⟨e, he, h3, h4⟩
        · exact absurd h3.symm h2
    · rw [hup, ht]
      have : (find oe.cons (normTerms c.terms)).upper.isSome ↔
          ∃ e ∈ cs, normTerms e.terms = normTerms c.terms ∧ (e.rel = .le ∨ e.rel = .eq) := by
        rcases hf with ⟨hf1, hf2⟩ | ⟨hf1, hf2⟩
        · rw [hi.upper _ hf1, hf2]
        · rw [hf2]
          simp only [Option.isSome_none, Bool.false_eq_true, false_iff]
          rintro ⟨e, he, h3, -⟩
          obtain ⟨g, hg, h4⟩ := hi.has e he
          exact hf1 g hg (h4.trans h3)
      rw [this]
      constructor
      · rintro (⟨e, he, h3⟩ | h3)
        · exact ⟨e, by simp [he], h3⟩
        · exact ⟨c, by simp, rfl, h3⟩
      · rintro ⟨e, he, h3, h4⟩
        simp only [List.mem_append, List.mem_singleton] at he
        rcases he with he | rfl
        · exact Or.inl ⟨e, he, h3, h4⟩
        · exact Or.inr h4
  · intro v
    simp only [vars_mem, hi.vars, norm_mem, List.mem_append, List.mem_singleton]
    constructor
    · rintro (⟨e, he, h⟩ | h)
      · exact ⟨e, Or.inl he, h⟩
      · exact ⟨c, Or.inr rfl, h⟩
    · rintro ⟨e, he | rfl, h⟩
      · exact Or.inl ⟨e, he, h⟩
      · exact Or.inr h
  · exact vars_sorted _ _ hi.sorted

theorem mk_inv (big : K) : Inv ([] : List (Cstr V K)) (mk big) := by
  constructor <;> simp [mk]

theorem addConstraint_rest (oe oe' : Oe V K) (c : Cstr V K) (h : addConstraint oe c = some oe') :
    oe'.obj = oe.obj ∧ oe'.bin = oe.bin ∧ oe'.int = oe.int := by
  simp only [addConstraint, Option.map_eq_some_iff] at h
  obtain ⟨nc, -, rfl⟩ := h
  exact ⟨rfl, rfl, rfl⟩

theorem addAll_inv (ds : List (Cstr V K)) : ∀ (cs : List (Cstr V K)) (oe oe' : Oe V K), Inv cs oe →
    addAll oe ds = some oe' → Inv (cs ++ ds) oe' ∧ oe'.obj = oe.obj ∧ oe'.bin = oe.bin ∧ oe'.int = oe.int := by
  induction ds with
  | nil => intro cs oe oe' hi h; simp only [addAll, Option.some.injEq] at h; subst h; simpa using hi
  | cons c ds ih =>
      intro cs oe oe' hi h
      simp only [addAll, Option.bind_eq_some_iff] at h
      obtain ⟨oe1, h1, h2⟩ := h
      have h3 := ih _ _ _ (add_inv _ _ _ _ hi h1) h2
      have h4 := addConstraint_rest _ _ _ h1
      rw [List.append_assoc, List.singleton_append] at h3
      refine ⟨h3.1, ?_, ?_, ?_⟩
      · rw [h3.2.1, h4.1]
      · rw [h3.2.2.1, h4.2.1]
      · rw [h3.2.2.2, h4.2.2]

theorem objs_fold (objs : List (K × V)) : ∀ oe : Oe V K,
    (objs.foldl addObjective oe).cons = oe.cons ∧
    (objs.foldl addObjective oe).obj = objs.foldl (fun m t => ins t.2 t.1 m) oe.obj ∧
    (objs.foldl addObjective oe).vars = objs.foldl (fun s t => insVar t.2 s) oe.vars ∧
    (objs.foldl addObjective oe).bin = oe.bin ∧ (objs.foldl addObjective oe).int = oe.int := by
  induction objs with
  | nil => intro oe; simp
  | cons t ts ih => intro oe; simp only [List.foldl_cons]; obtain ⟨a, b, c, d, e⟩ := ih (addObjective oe t)
                    exact ⟨a, b, c, d, e⟩

theorem objs_vars_mem (objs : List (K × V)) (s : List V) (w : V) :
    w ∈ objs.foldl (fun s t => insVar t.2 s) s ↔ w ∈ s ∨ ∃ t ∈ objs, t.2 = w := by
  induction objs generalizing s with
  | nil => simp
  | cons t ts ih =>
      rw [List.foldl_cons, ih, insVar_mem]
      simp only [List.mem_cons, exists_eq_or_imp, eq_comm (a := w)]; tauto

theorem objs_vars_sorted (objs : List (K × V)) (s : List V) (h : s.Pairwise (· < ·)) :
    (objs.foldl (fun s t => insVar t.2 s) s).Pairwise (· < ·) := by
  induction objs generalizing s with
  | nil => exact h
  | cons t ts ih => rw [List.foldl_cons]; exact ih _ (insVar_sorted _ _ h)

theorem bin_fold (bs : List V) : ∀ oe : Oe V K,
    bs.foldl setBinary oe = { oe with bin := bs.foldl (fun s v => insVar v s) oe.bin } := by
  induction bs with
  | nil => intro oe; rfl
  | cons b bs ih => intro oe; simp only [List.foldl_cons]; rw [ih]; rfl

theorem bins_mem (bs : List V) (s : List V) (w : V) :
    w ∈ bs.foldl (fun s v => insVar v s) s ↔ w ∈ s ∨ w ∈ bs := by
  induction bs generalizing s with
  | nil => simp
  | cons t ts ih => rw [List.foldl_cons, ih, insVar_mem]; simp only [List.mem_cons]; tauto

/-- What `optexp` builds. -/
theorem optexp_spec (big : K) (later : Bool) (cs : List (Cstr V K)) (objs : List (K × V)) (bins ints : List V)
    (dxl dxu dbl dbu : K) (oe : Oe V K) (h : optexp big later cs objs bins ints dxl dxu dbl dbu = some oe) :
    ∃ oe0 : Oe V K, Inv cs oe0 ∧ oe.cons = oe0.cons ∧ oe.obj = normTerms objs ∧
      oe.vars.Pairwise (· < ·) ∧ (∀ v, v ∈ oe.vars ↔ Occurs cs objs v) ∧ oe.dxl = some dxl ∧
      oe.dbl = dbl ∧ oe.dbu = dbu ∧ oe.int = [] ∧ ∀ v, v ∈ oe.bin ↔ v ∈ bins ∨ v ∈ ints := by
  simp only [optexp, Option.map_eq_some_iff] at h
  obtain ⟨oe0, h0, h1⟩ := h
  obtain ⟨hi, ho, hb, hint⟩ := addAll_inv cs [] _ _ (mk_inv big) h0
  rw [List.nil_append] at hi
  obtain ⟨f1, f2, f3, f4, f5⟩ := objs_fold objs oe0
  simp only [bin_fold, setXUpper] at h1
  refine ⟨oe0, hi, ?_⟩
  have e2 : (mk big : Oe V K).obj = [] := rfl
  have e3 : (mk big : Oe V K).bin = [] := rfl
  have e4 : (mk big : Oe V K).int = [] := rfl
  have hv : ∀ v, v ∈ objs.foldl (fun s t => insVar t.2 s) oe0.vars ↔ Occurs cs objs v := by
    intro v; rw [objs_vars_mem, hi.vars]; rfl
  have hs := objs_vars_sorted objs oe0.vars hi.sorted
  cases later <;> simp only [if_true, Bool.false_eq_true, if_false] at h1 <;> subst h1 <;>
    refine ⟨f1, ?_, ?_, ?_, rfl, rfl, rfl, ?_, fun v => ?_⟩ <;>
    simp only [f2, f3, f4, f5, ho, hb, hint, e2, e3, e4] <;>
    first
      | rfl
      | exact hs
      | exact hv
      | (rw [bins_mem, bins_mem]; simp)

end Verif.OptExp
