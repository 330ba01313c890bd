import Verif.Model.SgKin
import Mathlib.Tactic.Linarith
import Mathlib.Algebra.Order.AbsoluteValue.Basic

/-!
# C51: incremental kinematics update equals full recomputation
-/

namespace Verif.Sg

open Verif.Tf

/-- The loop only appends to its accumulators, one column per frame. -/
theorem absLoop_extends {α : Type} {rel : Entry Body → Option α} {mul : α → α → α}
    {es : List (Option (Entry Body))} {R A R' A' : List α} (h : absLoop rel mul es R A = some (R', A')) :
    ∃ r a, R' = R ++ r ∧ A' = A ++ a ∧ r.length = es.length ∧ a.length = es.length := by
  induction es generalizing R A with
  | nil =>
    simp only [absLoop, Option.some.injEq, Prod.mk.injEq] at h
    exact ⟨[], [], by simp [h.1], by simp [h.2], rfl, rfl⟩
  | cons e es ih =>
    cases e with
    | none => simp [absLoop] at h
    | some e =>
      simp only [absLoop] at h
      cases hr : rel e with
      | none => rw [hr] at h; simp at h
      | some r0 =>
        rw [hr] at h
        simp only at h
        have fin : ∀ a0, absLoop rel mul es (R ++ [r0]) (A ++ [a0]) = some (R', A') →
            ∃ r a, R' = R ++ r ∧ A' = A ++ a ∧ r.length = (some e :: es).length ∧
              a.length = (some e :: es).length := by
          intro a0 h
          obtain ⟨r, a, h1, h2, h3, h4⟩ := ih h
          exact ⟨r0 :: r, a0 :: a, by simp [h1], by simp [h2], by simp [h3], by simp [h4]⟩
        by_cases hg : e.frame.inGlobal = true
        · rw [if_pos hg] at h; exact fin _ h
        · rw [if_neg hg] at h
          cases hp : parentCol A e.parentId with
          | none => rw [hp] at h; simp at h
          | some p => rw [hp] at h; exact fin _ h

theorem getElem?_of_extends {α : Type} {l l' r : List α} {x : α} (h : l' = (l ++ [x]) ++ r) :
    l'[l.length]? = some x := by
  rw [h, List.append_assoc, List.getElem?_append_right (le_refl _)]
  simp

theorem parentCol_lt {α : Type} {l : List α} {id : Int} {x : α} (h : parentCol l id = some x) :
    ∃ i : Nat, i < l.length ∧ l[i]? = some x ∧ ∀ {β : Type} (l' : List β), parentCol l' id = l'[i]? := by
  unfold parentCol at h
  by_cases hi : id < 0
  · rw [if_pos hi] at h; simp at h
  · rw [if_neg hi] at h
    exact ⟨id.toNat, (List.getElem?_eq_some_iff.1 h).1, h, fun l' => by
      unfold parentCol; rw [if_neg hi]⟩

theorem updLoop_eq {q0 q : Nat → ℝ} {R0 A0 : List Qutr} :
    ∀ (es : List (Option (Entry Body))) (rel abs rel0 abs0 : List Qutr) (upd : List Bool),
      rel.length = rel0.length → abs.length = rel0.length → abs0.length = rel0.length →
      upd.length = rel0.length →
      (∀ i : Nat, upd[i]? = some false → abs[i]? = abs0[i]?) →
      absLoop (entryRel q0) qutrMul es rel0 abs0 = some (R0, A0) →
      updLoop q0 q R0 A0 es rel abs upd = absLoop (entryRel q) qutrMul es rel abs := by
  intro es
  induction es with
  | nil => intros; rfl
  | cons e es ih =>
    intro rel abs rel0 abs0 upd l1 l2 l3 l4 hupd h
    cases e with
    | none => simp [absLoop] at h
    | some e =>
      simp only [absLoop] at h
      cases hr0 : entryRel q0 e with
      | none => rw [hr0] at h; simp at h
      | some r0 =>
        rw [hr0] at h
        simp only at h
        -- the column computed for q0
        obtain ⟨a0, ha0, hrec⟩ : ∃ a0, ((e.frame.inGlobal = true ∧ a0 = r0) ∨
            (e.frame.inGlobal = false ∧ ∃ p0, parentCol abs0 e.parentId = some p0 ∧
              a0 = qutrMul p0 r0)) ∧
            absLoop (entryRel q0) qutrMul es (rel0 ++ [r0]) (abs0 ++ [a0]) = some (R0, A0) := by
          by_cases hg : e.frame.inGlobal = true
          · rw [if_pos hg] at h; exact ⟨r0, Or.inl ⟨hg, rfl⟩, h⟩
          · rw [if_neg hg] at h
            cases hp : parentCol abs0 e.parentId with
            | none => rw [hp] at h; simp at h
            | some p0 =>
              rw [hp] at h
              exact ⟨_, Or.inr ⟨by simpa using hg, p0, rfl, rfl⟩, h⟩
        obtain ⟨rr, aa, hR, hA, -, -⟩ := absLoop_extends hrec
        have hRk : R0[rel.length]? = some r0 := by rw [l1]; exact getElem?_of_extends hR
        have hAk : A0[rel.length]? = some a0 := by
          rw [l1, ← l3]; exact getElem?_of_extends hA
        -- continuing from a column that was updated or copied
        have cont : ∀ (r a : Qutr) (u : Bool), (u = false → a = a0) →
            updLoop q0 q R0 A0 es (rel ++ [r]) (abs ++ [a]) (upd ++ [u]) =
              absLoop (entryRel q) qutrMul es (rel ++ [r]) (abs ++ [a]) := by
          intro r a u hu
          refine ih _ _ (rel0 ++ [r0]) (abs0 ++ [a0]) _ (by simp [l1]) (by simp [l2]) (by simp [l3])
            (by simp [l4]) ?_ hrec
          intro i hi
          rw [List.getElem?_append] at hi ⊢
          rw [List.getElem?_append]
          by_cases hlt : i < upd.length
          · rw [if_pos hlt] at hi
            rw [if_pos (by omega), if_pos (by omega)]
            exact hupd i hi
          · rw [if_neg hlt] at hi
            rw [if_neg (by omega), if_neg (by omega)]
            have hz : i - upd.length = 0 := by
              have := (List.getElem?_eq_some_iff.1 hi).1
              simp only [List.length_singleton] at this
              omega
            rw [hz] at hi
            rw [show i - abs.length = 0 by omega, show i - abs0.length = 0 by omega]
            simp only [List.getElem?_cons_zero, Option.some.injEq] at hi ⊢
            exact hu hi
        -- unchanged relative transform
        have same : ∀ (u : Bool), (if e.frame.inGlobal then some false
              else parentCol upd e.parentId) = some u → entryRel q e = some r0 →
            (match u with
              | true =>
                if e.frame.inGlobal then
                  updLoop q0 q R0 A0 es (rel ++ [r0]) (abs ++ [r0]) (upd ++ [true])
                else
                  match parentCol abs e.parentId with
                  | none => none
                  | some p =>
                    updLoop q0 q R0 A0 es (rel ++ [r0]) (abs ++ [qutrMul p r0]) (upd ++ [true])
              | false =>
                match A0[rel.length]? with
                | none => none
                | some a => updLoop q0 q R0 A0 es (rel ++ [r0]) (abs ++ [a]) (upd ++ [false])) =
            absLoop (entryRel q) qutrMul (some e :: es) rel abs := by
          intro u hu hrq
          simp only [absLoop, hrq]
          rcases ha0 with ⟨hg, rfl⟩ | ⟨hg, p0, hp0, rfl⟩
          · rw [if_pos hg, Option.some.injEq] at hu
            subst hu
            simp only [hAk, if_pos hg]
            exact cont _ _ _ (fun _ => rfl)
          · have hg' : ¬ e.frame.inGlobal = true := by rw [hg]; simp
            rw [if_neg hg'] at hu
            simp only [if_neg hg']
            obtain ⟨i, hi, hi2, hcol⟩ := parentCol_lt hp0
            rw [hcol] at hu
            simp only [hcol]
            obtain ⟨p, hp⟩ : ∃ p, abs[i]? = some p := ⟨_, List.getElem?_eq_getElem (by omega)⟩
            simp only [hp]
            cases u with
            | true => exact cont _ _ _ (fun h => by simp at h)
            | false =>
              simp only [hAk]
              have : p = p0 := by
                have := hupd i hu
                rw [hp, hi2] at this
                exact Option.some.inj this
              subst this
              exact cont _ _ _ (fun _ => rfl)
        have hparent : ∃ u, (if e.frame.inGlobal then some false
            else parentCol upd e.parentId) = some u := by
          rcases ha0 with ⟨hg, -⟩ | ⟨hg, p0, hp0, -⟩
          · exact ⟨false, if_pos hg⟩
          · obtain ⟨i, hi, -, hcol⟩ := parentCol_lt hp0
            rw [if_neg (by rw [hg]; simp), hcol]
            exact ⟨_, List.getElem?_eq_getElem (by omega)⟩
        obtain ⟨u, hu⟩ := hparent
        -- changed joint
        have changed : ∀ r, entryRel q e = some r →
            (if e.frame.inGlobal then
                  updLoop q0 q R0 A0 es (rel ++ [r]) (abs ++ [r]) (upd ++ [true])
                else
                  match parentCol abs e.parentId with
                  | none => none
                  | some p =>
                    updLoop q0 q R0 A0 es (rel ++ [r]) (abs ++ [qutrMul p r]) (upd ++ [true])) =
            absLoop (entryRel q) qutrMul (some e :: es) rel abs := by
          intro r hrq
          simp only [absLoop, hrq]
          by_cases hg : e.frame.inGlobal = true
          · rw [if_pos hg, if_pos hg]; exact cont _ _ _ (fun h => by simp at h)
          · rw [if_neg hg, if_neg hg]
            cases parentCol abs e.parentId with
            | none => rfl
            | some p => exact cont _ _ _ (fun h => by simp at h)
        have joint : e.frame.kind ≠ Kind.fixed → ∃ c, e.configIndex = some c ∧
            ∀ x : Nat → ℝ, entryRel x e = some (tfRel e.frame.kind e.frame.body (x c)) := by
          intro hk
          have hx : ∀ x, entryRel x e =
              e.configIndex.map (fun c => tfRel e.frame.kind e.frame.body (x c)) := by
            intro x
            unfold entryRel jointVar
            cases hkk : e.frame.kind with
            | fixed => exact absurd hkk hk
            | revolute => cases e.configIndex <;> rfl
            | prismatic => cases e.configIndex <;> rfl
          cases hc : e.configIndex with
          | none => rw [hx, hc] at hr0; simp at hr0
          | some c => exact ⟨c, rfl, fun x => by rw [hx, hc]; rfl⟩
        rw [updLoop]
        simp only [hu]
        cases hk : e.frame.kind with
        | fixed =>
          have hq : entryRel q e = some r0 := by
            rw [← hr0]
            unfold entryRel jointVar
            rw [hk]
          have hr : tfRel Kind.fixed e.frame.body 0 = r0 := by
            have := hr0
            unfold entryRel jointVar at this
            rw [hk] at this
            simpa using this
          simp only [hr]
          rw [← same u hu hq]
          cases u <;> rfl
        | revolute =>
          obtain ⟨c, hc, hx⟩ := joint (by rw [hk]; simp)
          rw [hk] at hx
          simp only [hc]
          by_cases hqq : |q0 c - q c| ≤ 0
          · have hqc : q0 c = q c := sub_eq_zero.1 (abs_nonpos_iff.1 hqq)
            have hq : entryRel q e = some r0 := by rw [← hr0, hx, hx, hqc]
            rw [if_pos hqq]
            simp only [hRk]
            rw [← same u hu hq]
            cases u <;> rfl
          · rw [if_neg hqq]
            rw [← changed _ (hx q)]
            rfl
        | prismatic =>
          obtain ⟨c, hc, hx⟩ := joint (by rw [hk]; simp)
          rw [hk] at hx
          simp only [hc]
          by_cases hqq : |q0 c - q c| ≤ 0
          · have hqc : q0 c = q c := sub_eq_zero.1 (abs_nonpos_iff.1 hqq)
            have hq : entryRel q e = some r0 := by rw [← hr0, hx, hx, hqc]
            rw [if_pos hqq]
            simp only [hRk]
            rw [← same u hu hq]
            cases u <;> rfl
          · rw [if_neg hqq]
            rw [← changed _ (hx q)]
            rfl

/-- C51: for every scene graph, every number of columns and every pair of configurations,
`aa_rx_sg_tf_update` from `q0` and the transforms `aa_rx_sg_tf` computes for it to `q` returns what
`aa_rx_sg_tf` returns for `q`, relative and absolute, and is defined when that is.  -/
theorem C51_update (g : Graph Body) (n : Nat) (q0 q : Nat → ℝ) (rel0 abs0 : List Qutr)
    (h : sgTf g n q0 = some (rel0, abs0)) :
    sgTfUpdate g n q0 q rel0 abs0 = sgTf g n q :=
  updLoop_eq _ [] [] [] [] [] rfl rfl rfl rfl (by simp) h

end Verif.Sg
