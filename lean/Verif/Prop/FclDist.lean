import Verif.Prop.FclCheck

/-!
# C89: separation distances
-/

namespace Verif.Fcl

open Verif.Tf Verif.Sg Verif.GlMesh

/-! ## Specification -/

/-- Distance of two points. -/
noncomputable def gap (p q : V3) : ℝ := Real.sqrt ((p.x - q.x) ^ 2 + (p.y - q.y) ^ 2 + (p.z - q.z) ^ 2)

/-- The points occupied by the collision geometry of a frame. -/
def Solid (scene : List (List Geom)) (tf : Nat → Qutr) (a : Nat) (p : V3) : Prop :=
  ∃ gs g, scene[a]? = some gs ∧ g ∈ gs ∧ g.collision = true ∧ g.occupies (tf a) p

/-- A frame has collision geometry. -/
def HasGeom (scene : List (List Geom)) (a : Nat) : Prop :=
  ∃ gs g, scene[a]? = some gs ∧ g ∈ gs ∧ g.collision = true

/-- Contract of `fcl::distance`: nearest points and their distance, or nothing positive if there is a
common point; the normals at contacts have length one. -/
def DistOk (dblMax : ℝ) (r : FclDist) (X Y : V3 → Prop) : Prop :=
  (r.minDistance < dblMax ∧ ∀ c ∈ r.contacts, vdot c.2.2 c.2.2 = 1) ∧ (r.minDistance ≤ 0 → ∃ p, X p ∧ Y p) ∧
  (0 < r.minDistance → X r.near0 ∧ Y r.near1 ∧ gap r.near0 r.near1 = r.minDistance ∧
    ∀ p q, X p → Y q → r.minDistance ≤ gap p q)

/-- Contract of the broad phase: the callback does not lower the bound that it is given, so that it is
called for all pairs of objects, in whatever order. -/
def AllPairs (m : Nat) (visits : List (Nat × Nat)) : Prop :=
  (∀ p ∈ visits, p.1 < m ∧ p.2 < m) ∧
  ∀ i j, i < m → j < m → i ≠ j → (i, j) ∈ visits ∨ (j, i) ∈ visits

/-! ## Preparation of the table -/

theorem row_init (dblMax : ℝ) (n j : Nat) : ∀ (l : List Nat) (d : Nat → Ent) (k : Nat),
    (l.foldl (fun d i => Function.update d (j * n + i) { d (j * n + i) with dist := dblMax }) d) k =
      if ∃ i ∈ l, k = j * n + i then { d k with dist := dblMax } else d k := by
  intro l
  induction l with
  | nil => intro d k; simp
  | cons i l ih =>
    intro d k
    rw [List.foldl_cons, ih]
    by_cases h : k = j * n + i
    · subst h
      simp
    · rw [Function.update_of_ne h]
      simp [h]

theorem distInit_get (dblMax : ℝ) (n : Nat) (d : Nat → Ent) :
    (∀ a, a < n → (distInit dblMax n d (a * n + a)) = ⟨0, ⟨0, 0, 0⟩, ⟨0, 0, 0⟩⟩) ∧
    ∀ a b, b < a → a < n → (distInit dblMax n d (b * n + a)).dist = dblMax := by
  have key : ∀ m, m ≤ n →
      (∀ a, a < m → ((List.range m).foldl (fun d j =>
        (List.range' (j + 1) (n - (j + 1))).foldl
          (fun d i => Function.update d (j * n + i) { d (j * n + i) with dist := dblMax })
          (Function.update d (j * n + j) ⟨0, ⟨0, 0, 0⟩, ⟨0, 0, 0⟩⟩)) d) (a * n + a) =
            ⟨0, ⟨0, 0, 0⟩, ⟨0, 0, 0⟩⟩) ∧
      ∀ a b, b < a → a < n → b < m → (((List.range m).foldl (fun d j =>
        (List.range' (j + 1) (n - (j + 1))).foldl
          (fun d i => Function.update d (j * n + i) { d (j * n + i) with dist := dblMax })
          (Function.update d (j * n + j) ⟨0, ⟨0, 0, 0⟩, ⟨0, 0, 0⟩⟩)) d) (b * n + a)).dist = dblMax := by
    intro m
    induction m with
    | zero => intro _; exact ⟨fun a h => by omega, fun a b _ _ h => by omega⟩
    | succ m ih =>
      intro hm
      obtain ⟨i1, i2⟩ := ih (by omega)
      rw [List.range_succ, List.foldl_append]
      simp only [List.foldl_cons, List.foldl_nil]
      generalize (List.range m).foldl _ d = d' at i1 i2
      have inj : ∀ {a b i j : Nat}, a < n → i < n → b * n + a = j * n + i → b = j ∧ a = i := by
        intro a b i j ha hi h
        have e1 := congrArg (· % n) h
        have e2 := congrArg (· / n) h
        simp only [Nat.mul_comm _ n, Nat.mul_add_mod, Nat.mod_eq_of_lt ha, Nat.mod_eq_of_lt hi] at e1
        simp only [Nat.mul_comm _ n, Nat.mul_add_div (by omega : 0 < n), Nat.div_eq_of_lt ha,
          Nat.div_eq_of_lt hi] at e2
        omega
      constructor
      · intro a ha
        rw [row_init, if_neg]
        · rcases Nat.lt_succ_iff_lt_or_eq.1 ha with h | rfl
          · rw [Function.update_of_ne, i1 a h]
            intro e; have := (inj (by omega) (by omega) e).1; omega
          · rw [Function.update_self]
        · rintro ⟨i, hi, e⟩
          rw [List.mem_range'_1] at hi
          have := inj (by omega) (by omega) e; omega
      · intro a b hab ha hb
        rw [row_init]
        rcases Nat.lt_succ_iff_lt_or_eq.1 hb with h | rfl
        · rw [if_neg]
          · rw [Function.update_of_ne, i2 a b hab ha h]
            intro e; have := (inj (by omega) (by omega) e).1; omega
          · rintro ⟨i, hi, e⟩
            rw [List.mem_range'_1] at hi
            have := inj (by omega) (by omega) e; omega
        · rw [if_pos ⟨a, by rw [List.mem_range'_1]; omega, rfl⟩]
  obtain ⟨h1, h2⟩ := key n (le_refl _)
  exact ⟨h1, fun a b hab ha => h2 a b hab ha (by omega)⟩

/-! ## The loop -/

/-- The pair in the order of the frames. -/
def ordered (frame : Nat → Nat) (p : Nat × Nat) : Nat × Nat :=
  if frame p.1 < frame p.2 then (p.2, p.1) else p

/-- A visited pair of objects of the frames. -/
def Cand (A : Sym2 Nat → Prop) (frame : Nat → Nat) (a b : Nat) (p : Nat × Nat) : Prop :=
  frame (ordered frame p).1 = a ∧ frame (ordered frame p).2 = b ∧ ¬ A s(a, b)

structure Inv (dblMax : ℝ) (A : Sym2 Nat → Prop) (n : Nat) (frame : Nat → Nat) (F : Nat → Nat → FclDist)
    (L : List (Nat × Nat)) (d : DistData) : Prop where
  col : d.inCollision = true ↔ ∃ p ∈ L, frame p.1 ≠ frame p.2 ∧ ¬ A s(frame p.1, frame p.2) ∧
    (F (ordered frame p).1 (ordered frame p).2).minDistance ≤ 0
  diag : ∀ a, a < n → d.data (a * n + a) = ⟨0, ⟨0, 0, 0⟩, ⟨0, 0, 0⟩⟩
  ent : ∀ a b, b < a → a < n →
    ((d.data (b * n + a)).dist = dblMax ∧ ∀ p ∈ L, ¬ Cand A frame a b p) ∨
    ∃ p ∈ L, Cand A frame a b p ∧
      d.data (b * n + a) = pairEnt (F (ordered frame p).1 (ordered frame p).2) ∧
      ∀ p' ∈ L, Cand A frame a b p' → (pairEnt (F (ordered frame p).1 (ordered frame p).2)).dist ≤
        (pairEnt (F (ordered frame p').1 (ordered frame p').2)).dist

theorem ent_inj {n a b i j : Nat} (ha : a < n) (hi : i < n) (h : b * n + a = j * n + i) :
    b = j ∧ a = i := by
  have e1 := congrArg (· % n) h
  have e2 := congrArg (· / n) h
  simp only [Nat.mul_comm _ n, Nat.mul_add_mod, Nat.mod_eq_of_lt ha, Nat.mod_eq_of_lt hi] at e1
  simp only [Nat.mul_comm _ n, Nat.mul_add_div (by omega : 0 < n), Nat.div_eq_of_lt ha,
    Nat.div_eq_of_lt hi] at e2
  omega

theorem inv_step {dblMax : ℝ} {allowed : ClSet} {n : Nat} {A : Sym2 Nat → Prop}
    (ha : Holds allowed n A) {frame : Nat → Nat} {F : Nat → Nat → FclDist} {L : List (Nat × Nat)}
    {d : DistData} (hI : Inv dblMax A n frame F L d) (p : Nat × Nat) (h1 : frame p.1 < n)
    (h2 : frame p.2 < n)
    (hF : (pairEnt (F (ordered frame p).1 (ordered frame p).2)).dist < dblMax) :
    ∃ d', distCallback allowed n frame F d p.1 p.2 = some (d', false) ∧
      Inv dblMax A n frame F (p :: L) d' := by
  by_cases hf : frame p.1 = frame p.2
  · refine ⟨d, by unfold distCallback; dsimp only; rw [if_pos hf], ?_, hI.diag, ?_⟩
    · rw [hI.col]
      simp [hf]
    · intro a b hab han
      have hno : ¬ Cand A frame a b p := by
        rintro ⟨e1, e2, -⟩
        unfold ordered at e1 e2
        rw [if_neg (by omega)] at e1 e2
        omega
      rcases hI.ent a b hab han with ⟨e1, e2⟩ | ⟨q, hq, e1, e2, e3⟩
      · exact Or.inl ⟨e1, fun p' hp' => (List.mem_cons.1 hp').elim (fun h => h ▸ hno) (e2 p')⟩
      · exact Or.inr ⟨q, by simp [hq], e1, e2, fun p' hp' hc => (List.mem_cons.1 hp').elim
          (fun h => absurd (h ▸ hc) hno) (fun h => e3 p' h hc)⟩
  -- the pair in order
  obtain ⟨o1, o2, eo⟩ : ∃ o1 o2, ordered frame p = (o1, o2) := ⟨_, _, rfl⟩
  have ho : frame o2 < frame o1 ∧ frame o1 < n ∧ s(frame p.1, frame p.2) = s(frame o1, frame o2) ∧
      (if frame p.1 < frame p.2 then p.2 else p.1) = o1 ∧
      (if frame p.1 < frame p.2 then p.1 else p.2) = o2 := by
    unfold ordered at eo
    split at eo
    · rename_i h
      cases eo
      exact ⟨h, h2, Sym2.eq_swap, if_pos h, if_pos h⟩
    · rename_i h
      obtain ⟨x, y⟩ := p
      cases eo
      dsimp only at *
      exact ⟨by omega, h1, rfl, if_neg h, if_neg h⟩
  obtain ⟨hlt, hn, hs, q1, q2⟩ := ho
  rw [eo] at hF
  dsimp only at hF
  have cand : ∀ a b, Cand A frame a b p ↔ frame o1 = a ∧ frame o2 = b ∧ ¬ A s(a, b) := by
    intro a b; unfold Cand; rw [eo]
  rcases holds_get ha hn (by omega : frame o2 < n) with ⟨g1, g2⟩ | ⟨g1, g2⟩
  · refine ⟨d, ?_, ?_, hI.diag, ?_⟩
    · unfold distCallback
      dsimp only
      rw [if_neg hf, q1, q2, g2]
    · rw [hI.col]
      simp [hs, g1]
    · intro a b hab han
      have hno : ¬ Cand A frame a b p := by
        rw [cand]; rintro ⟨rfl, rfl, h⟩; exact h g1
      rcases hI.ent a b hab han with ⟨e1, e2⟩ | ⟨q, hq, e1, e2, e3⟩
      · exact Or.inl ⟨e1, fun p' hp' => (List.mem_cons.1 hp').elim (fun h => h ▸ hno) (e2 p')⟩
      · exact Or.inr ⟨q, by simp [hq], e1, e2, fun p' hp' hc => (List.mem_cons.1 hp').elim
          (fun h => absurd (h ▸ hc) hno) (fun h => e3 p' h hc)⟩
  · have hp : entPos n (frame o1) (frame o2) = some (frame o2 * n + frame o1) := by
      unfold entPos
      rw [if_pos (by omega)]
      simp
    have hcb : distCallback allowed n frame F d p.1 p.2 = some (
        ⟨d.inCollision || decide ((F o1 o2).minDistance ≤ 0),
          if (d.data (frame o2 * n + frame o1)).dist > (pairEnt (F o1 o2)).dist then
            Function.update d.data (frame o2 * n + frame o1) (pairEnt (F o1 o2)) else d.data⟩, false) := by
      unfold distCallback
      dsimp only
      rw [if_neg hf, q1, q2, g2]
      dsimp only
      rw [hp]
      dsimp only
      split <;> rfl
    refine ⟨_, hcb, ?_, ?_, ?_⟩
    · dsimp only
      rw [Bool.or_eq_true, hI.col, decide_eq_true_iff]
      constructor
      · rintro (⟨q, hq, h⟩ | h)
        · exact ⟨q, by simp [hq], h⟩
        · exact ⟨p, by simp, hf, by rw [hs]; exact g1, by rw [eo]; exact h⟩
      · rintro ⟨q, hq, h⟩
        rcases List.mem_cons.1 hq with rfl | hq
        · right; have := h.2.2; rw [eo] at this; exact this
        · exact Or.inl ⟨q, hq, h⟩
    · intro a han
      dsimp only
      split
      · rw [Function.update_of_ne, hI.diag a han]
        intro e
        have := ent_inj han hn e
        omega
      · exact hI.diag a han
    · intro a b hab han
      dsimp only
      by_cases hc : Cand A frame a b p
      · have hc' := (cand a b).1 hc
        obtain ⟨rfl, rfl, -⟩ := hc'
        right
        split
        · rename_i hgt
          refine ⟨p, by simp, hc, by rw [Function.update_self, eo], ?_⟩
          intro p' hp' hcp
          rw [eo]
          dsimp only
          rcases List.mem_cons.1 hp' with rfl | hp'
          · rw [eo]
          · rcases hI.ent _ _ hab han with ⟨-, e2⟩ | ⟨q, hq, e1, e2, e3⟩
            · exact absurd hcp (e2 p' hp')
            · rw [e2] at hgt
              exact hgt.le.trans (e3 p' hp' hcp)
        · rename_i hgt
          rcases hI.ent _ _ hab han with ⟨e1, e2⟩ | ⟨q, hq, e1, e2, e3⟩
          · exfalso; rw [e1] at hgt; exact hgt hF
          · refine ⟨q, by simp [hq], e1, e2, ?_⟩
            intro p' hp' hcp
            rcases List.mem_cons.1 hp' with rfl | hp'
            · rw [e2] at hgt; rw [eo]; exact not_lt.1 hgt
            · exact e3 p' hp' hcp
      · have keep : (if (d.data (frame o2 * n + frame o1)).dist > (pairEnt (F o1 o2)).dist then
            Function.update d.data (frame o2 * n + frame o1) (pairEnt (F o1 o2)) else d.data)
            (b * n + a) = d.data (b * n + a) := by
          split
          · rw [Function.update_of_ne]
            intro e
            obtain ⟨rfl, rfl⟩ := ent_inj han hn e
            exact hc ((cand _ _).2 ⟨rfl, rfl, g1⟩)
          · rfl
        rw [keep]
        rcases hI.ent a b hab han with ⟨e1, e2⟩ | ⟨q, hq, e1, e2, e3⟩
        · exact Or.inl ⟨e1, fun p' hp' => (List.mem_cons.1 hp').elim (fun h => h ▸ hc) (e2 p')⟩
        · exact Or.inr ⟨q, by simp [hq], e1, e2, fun p' hp' hc' => (List.mem_cons.1 hp').elim
            (fun h => absurd (h ▸ hc') hc) (fun h => e3 p' h hc')⟩

theorem inv_visit {dblMax : ℝ} {allowed : ClSet} {n : Nat} {A : Sym2 Nat → Prop}
    (ha : Holds allowed n A) {frame : Nat → Nat} {F : Nat → Nat → FclDist} :
    ∀ (vs L : List (Nat × Nat)) (d : DistData), Inv dblMax A n frame F L d →
    (∀ p ∈ vs, frame p.1 < n ∧ frame p.2 < n ∧
      (pairEnt (F (ordered frame p).1 (ordered frame p).2)).dist < dblMax) →
    ∃ d', visit (distCallback allowed n frame F) vs d = some d' ∧
      Inv dblMax A n frame F (vs.reverse ++ L) d' := by
  intro vs
  induction vs with
  | nil => intro L d h _; exact ⟨d, rfl, h⟩
  | cons p vs ih =>
    intro L d h hv
    obtain ⟨h1, h2, h3⟩ := hv p (by simp)
    obtain ⟨d1, e1, i1⟩ := inv_step ha h p h1 h2 h3
    obtain ⟨d2, e2, i2⟩ := ih (p :: L) d1 i1 (fun q hq => hv q (by simp [hq]))
    exact ⟨d2, by simp only [visit, e1]; exact e2, by simpa using i2⟩

theorem inv_init {dblMax : ℝ} {A : Sym2 Nat → Prop} {n : Nat} {frame : Nat → Nat}
    {F : Nat → Nat → FclDist} (d : Nat → Ent) :
    Inv dblMax A n frame F [] ⟨false, distInit dblMax n d⟩ :=
  ⟨by simp, fun a h => (distInit_get dblMax n d).1 a h,
    fun a b h h' => Or.inl ⟨(distInit_get dblMax n d).2 a b h h', by simp⟩⟩

theorem deepest_ge : ∀ (l : List (ℝ × V3 × V3)) (a : ℝ × V3 × V3), a.1 ≤ (deepest l a).1 := by
  intro l
  induction l with
  | nil => intro a; exact le_refl _
  | cons c l ih =>
    intro a
    unfold deepest
    split
    · rename_i h; exact h.le.trans (ih (c.1, c.2.1, vadd (vscal c.1 c.2.2) c.2.1))
    · exact ih _

theorem pairEnt_sign (r : FclDist) : (pairEnt r).dist ≤ 0 ↔ r.minDistance ≤ 0 := by
  unfold pairEnt
  split
  · rename_i h
    have := deepest_ge r.contacts (0, r.near0, r.near1)
    dsimp only at *
    exact iff_of_true (by linarith) h
  · rfl

/-! ## The objects of a frame -/

/-- The frame of an object of a context. -/
abbrev frameOf (scene : List (List Geom)) (i : Nat) : Nat :=
  ((objects scene)[i]?.map (·.frame)).getD 0

/-- The shapes at their transforms. -/
noncomputable abbrev placedObjs (scene : List (List Geom)) (tf : Nat → Qutr) : List (FclGeom × Tfm) :=
  (objects scene).map fun o => (o.fcl, updateTf tf o)

theorem obj_geom {scene : List (List Geom)}
    (hs : ∀ gs ∈ scene, ∀ g ∈ gs, g.collision = true → Supported g) {o : Obj}
    (ho : o ∈ objects scene) : ∃ gs, scene[o.frame]? = some gs ∧ o.geom ∈ gs ∧
      initHelper o.geom = some o.fcl ∧ o.geom.collision = true ∧ Supported o.geom := by
  obtain ⟨gs, h1, h2, h3⟩ := (mem_objects scene o).1 ho
  have h4 : o.geom.collision = true := by
    unfold initHelper at h3
    by_contra h
    rw [if_neg h] at h3
    cases h3
  exact ⟨gs, h1, h2, h3, h4, hs gs (List.mem_of_getElem? h1) _ h2 h4⟩

theorem geom_obj {scene : List (List Geom)}
    (hs : ∀ gs ∈ scene, ∀ g ∈ gs, g.collision = true → Supported g) {a : Nat} {gs : List Geom}
    {g : Geom} (h1 : scene[a]? = some gs) (h2 : g ∈ gs) (h3 : g.collision = true) :
    ∃ (i : Nat) (o : Obj), (objects scene)[i]? = some o ∧ o.frame = a ∧ o.geom = g := by
  have h := hs gs (List.mem_of_getElem? h1) g h2 h3
  have : ∃ f, initHelper g = some f := by
    unfold initHelper
    rw [if_pos h3]
    obtain ⟨c, k, sh⟩ := g
    cases sh <;> first | exact ⟨_, rfl⟩ | exact absurd h.2 id
  obtain ⟨f, e⟩ := this
  have ho : (⟨a, g, f⟩ : Obj) ∈ objects scene := (mem_objects _ _).2 ⟨gs, h1, h2, e⟩
  obtain ⟨i, hi⟩ := List.mem_iff_getElem?.1 ho
  exact ⟨i, _, hi, rfl, rfl⟩

theorem solid_iff {scene : List (List Geom)}
    (hs : ∀ gs ∈ scene, ∀ g ∈ gs, g.collision = true → Supported g) (tf : Nat → Qutr) (a : Nat)
    (p : V3) : Solid scene tf a p ↔
      ∃ (i : Nat) (o : Obj), (objects scene)[i]? = some o ∧ o.frame = a ∧ placed (o.fcl, updateTf tf o) p := by
  constructor
  · rintro ⟨gs, g, h1, h2, h3, h4⟩
    obtain ⟨i, o, e, rfl, rfl⟩ := geom_obj hs h1 h2 h3
    obtain ⟨_, _, _, k3, _, k5⟩ := obj_geom hs (List.mem_of_getElem? e)
    exact ⟨i, o, e, rfl, (placed_eq k3 k5 tf p).2 h4⟩
  · rintro ⟨i, o, e, rfl, h⟩
    obtain ⟨gs, k1, k2, k3, k4, k5⟩ := obj_geom hs (List.mem_of_getElem? e)
    exact ⟨gs, o.geom, k1, k2, k4, (placed_eq k3 k5 tf p).1 h⟩

theorem overlap_solid (scene : List (List Geom)) (tf : Nat → Qutr) (a b : Nat) :
    Overlap scene tf a b ↔ ∃ p, Solid scene tf a p ∧ Solid scene tf b p := by
  constructor
  · rintro ⟨ga, gb, gas, gbs, h1, h2, h3, h4, h5, h6, p, h7, h8⟩
    exact ⟨p, ⟨gas, ga, h1, h3, h5, h7⟩, ⟨gbs, gb, h2, h4, h6, h8⟩⟩
  · rintro ⟨p, ⟨gas, ga, h1, h3, h5, h7⟩, ⟨gbs, gb, h2, h4, h6, h8⟩⟩
    exact ⟨ga, gb, gas, gbs, h1, h2, h3, h4, h5, h6, p, h7, h8⟩

/-! ## The smallest distance of a frame -/

theorem minLoop_spec {n : Nat} {d : DistData} {id0 : Nat} {D : Nat → ℝ} {P : Nat → V3 × V3} :
    ∀ (l : List Nat) (m : ℝ) (o : Option (Nat × V3 × V3)),
    (∀ t ∈ l, t ≠ id0 → getDist n d id0 t = some (D t) ∧
      getPoints n d id0 t = some (D t, (P t).1, (P t).2)) →
    ∃ m' o', minLoop n d id0 l (m, o) = some (m', o') ∧ m' ≤ m ∧ (∀ t ∈ l, t ≠ id0 → m' ≤ D t) ∧
      ((m' = m ∧ o' = o) ∨ ∃ t ∈ l, t ≠ id0 ∧ m' = D t ∧ D t < m ∧ o' = some (t, P t)) := by
  intro l
  induction l with
  | nil => intro m o _; exact ⟨m, o, rfl, le_refl _, by simp, Or.inl ⟨rfl, rfl⟩⟩
  | cons t l ih =>
    intro m o h
    have h' : ∀ t ∈ l, t ≠ id0 → getDist n d id0 t = some (D t) ∧
      getPoints n d id0 t = some (D t, (P t).1, (P t).2) := fun t ht => h t (by simp [ht])
    unfold minLoop
    by_cases ht : t = id0
    · rw [if_pos (by exact_mod_cast ht.symm)]
      obtain ⟨m', o', e, h1, h2, h3⟩ := ih m o h'
      refine ⟨m', o', e, h1, ?_, ?_⟩
      · intro t' ht' hne
        rcases List.mem_cons.1 ht' with rfl | ht'
        · exact absurd ht hne
        · exact h2 t' ht' hne
      · rcases h3 with h3 | ⟨t', k1, k2⟩
        · exact Or.inl h3
        · exact Or.inr ⟨t', by simp [k1], k2⟩
    · rw [if_neg (by intro e; exact ht (by exact_mod_cast e.symm))]
      obtain ⟨g1, g2⟩ := h t (by simp) ht
      rw [g1, g2]
      dsimp only
      split
      · rename_i hlt
        obtain ⟨m', o', e, h1, h2, h3⟩ := ih (D t) (some (t, (P t).1, (P t).2)) h'
        refine ⟨m', o', e, h1.trans hlt.le, ?_, Or.inr ?_⟩
        · intro t' ht' hne
          rcases List.mem_cons.1 ht' with rfl | ht'
          · exact h1
          · exact h2 t' ht' hne
        · rcases h3 with ⟨k1, k2⟩ | ⟨t', k1, k2, k3, k4, k5⟩
          · exact ⟨t, by simp, ht, k1, hlt, k2⟩
          · exact ⟨t', by simp [k1], k2, k3, k4.trans hlt, k5⟩
      · rename_i hlt
        obtain ⟨m', o', e, h1, h2, h3⟩ := ih m o h'
        refine ⟨m', o', e, h1, ?_, ?_⟩
        · intro t' ht' hne
          rcases List.mem_cons.1 ht' with rfl | ht'
          · exact h1.trans (not_lt.1 hlt)
          · exact h2 t' ht' hne
        · rcases h3 with h3 | ⟨t', k1, k2⟩
          · exact Or.inl h3
          · exact Or.inr ⟨t', by simp [k1], k2⟩

/-- In a collision the points are apart by the depth. -/
theorem deepest_gap : ∀ (l : List (ℝ × V3 × V3)) (a : ℝ × V3 × V3),
    (∀ c ∈ l, vdot c.2.2 c.2.2 = 1) → 0 ≤ a.1 → (0 < a.1 → gap a.2.1 a.2.2 = a.1) →
    0 < (deepest l a).1 → gap (deepest l a).2.1 (deepest l a).2.2 = (deepest l a).1 := by
  intro l
  induction l with
  | nil => intro a _ _ h h'; exact h h'
  | cons c l ih =>
    intro a hl h0 h
    rw [deepest]
    have hl' : ∀ c ∈ l, vdot c.2.2 c.2.2 = 1 := fun x hx => hl x (by simp [hx])
    split
    · rename_i hlt
      refine ih _ hl' (h0.trans hlt.le) (fun _ => ?_)
      have hc := hl c (by simp)
      have hp : 0 < c.1 := h0.trans_lt hlt
      unfold gap
      rw [show (c.2.1.x - (vadd (vscal c.1 c.2.2) c.2.1).x) ^ 2 +
          (c.2.1.y - (vadd (vscal c.1 c.2.2) c.2.1).y) ^ 2 +
          (c.2.1.z - (vadd (vscal c.1 c.2.2) c.2.1).z) ^ 2 = c.1 ^ 2 * vdot c.2.2 c.2.2 by
        simp only [vadd, vscal, vdot]; ring, hc, mul_one]
      exact Real.sqrt_sq hp.le
    · exact ih a hl' h0 h

theorem pairEnt_gap {r : FclDist} (h : ∀ c ∈ r.contacts, vdot c.2.2 c.2.2 = 1)
    (hx : (pairEnt r).dist < 0) : gap (pairEnt r).point0 (pairEnt r).point1 = -(pairEnt r).dist := by
  unfold pairEnt at hx ⊢
  split at hx
  · rename_i hm
    rw [if_pos hm]
    simp only at hx ⊢
    rw [neg_neg]
    exact deepest_gap _ _ h (le_refl _) (fun h => absurd h (lt_irrefl _)) (by linarith)
  · rename_i hm
    exact absurd hx (by simp only; linarith)

/-! ## Theorem -/

/-- What is to be known about two frames: the distance `x` and the points on them. -/
def Separation (dblMax : ℝ) (scene : List (List Geom)) (tf : Nat → Qutr) (A : Sym2 Nat → Prop)
    (a b : Nat) (x : ℝ) (p0 p1 : V3) : Prop :=
  (A s(a, b) ∨ ¬ HasGeom scene a ∨ ¬ HasGeom scene b → x = dblMax) ∧
  (¬ A s(a, b) → HasGeom scene a → HasGeom scene b → x < dblMax ∧
    (x ≤ 0 ↔ ∃ p, Solid scene tf a p ∧ Solid scene tf b p) ∧ (x < 0 → gap p0 p1 = -x) ∧
    (0 < x → Solid scene tf a p0 ∧ Solid scene tf b p1 ∧ gap p0 p1 = x ∧
      ∀ p q, Solid scene tf a p → Solid scene tf b q → x ≤ gap p q))

theorem gap_comm (p q : V3) : gap p q = gap q p := by
  unfold gap
  congr 1
  ring

theorem gap_self (p : V3) : gap p p = 0 := by
  unfold gap
  simp

theorem Separation.symm {dblMax : ℝ} {scene : List (List Geom)} {tf : Nat → Qutr}
    {A : Sym2 Nat → Prop} {a b : Nat} {x : ℝ} {p0 p1 : V3}
    (h : Separation dblMax scene tf A a b x p0 p1) : Separation dblMax scene tf A b a x p1 p0 := by
  obtain ⟨h1, h2⟩ := h
  rw [Sym2.eq_swap] at h1 h2
  refine ⟨fun h => h1 (by tauto), fun k1 k2 k3 => ?_⟩
  obtain ⟨e1, e2, e2', e3⟩ := h2 k1 k3 k2
  refine ⟨e1, ?_, fun hx => by rw [gap_comm]; exact e2' hx, fun hx => ?_⟩
  · rw [e2]; exact exists_congr fun p => and_comm
  · obtain ⟨f1, f2, f3, f4⟩ := e3 hx
    exact ⟨f2, f1, by rw [gap_comm]; exact f3, fun p q hp hq => by rw [gap_comm]; exact f4 q p hq hp⟩

/-- **C89** for meshes, boxes, spheres and unscaled cylinders; see C88 for the others. -/
theorem C89_dist_partial (dblMax : ℝ) (hmax : 0 < dblMax)
    (fdist : FclGeom × Tfm → FclGeom × Tfm → FclDist)
    (scene : List (List Geom)) (tf : Nat → Qutr) (allowed : ClSet) (A : Sym2 Nat → Prop)
    (ha : Holds allowed scene.length A)
    (hs : ∀ gs ∈ scene, ∀ g ∈ gs, g.collision = true → Supported g)
    (hd : ∀ x ∈ placedObjs scene tf, ∀ y ∈ placedObjs scene tf,
      DistOk dblMax (fdist x y) (placed x) (placed y))
    (visits : List (Nat × Nat)) (hb : AllPairs (objects scene).length visits) (d : DistData) :
    ∃ d', clDistCheck dblMax fdist scene allowed tf visits d = some d' ∧
      (d'.inCollision = true ↔ ∃ a b, a ≠ b ∧ ¬ A s(a, b) ∧ Overlap scene tf a b) ∧
      (∀ a, a < scene.length → getDist scene.length d' a a = some 0) ∧
      (∀ a b : Nat, a < scene.length → b < scene.length → a ≠ b →
        ∃ x p0 p1, getDist scene.length d' a b = some x ∧
          getPoints scene.length d' a b = some (x, p0, p1) ∧
          Separation dblMax scene tf A a b x p0 p1) ∧
      ∀ a : Nat, a < scene.length → ∃ x o, getMinDist dblMax scene.length d' a = some (x, o) ∧
        (∀ b : Nat, b < scene.length → b ≠ a → ∃ y, getDist scene.length d' a b = some y ∧ x ≤ y) ∧
        ((x = dblMax ∧ o = none) ∨ ∃ b : Nat, b < scene.length ∧ b ≠ a ∧ ∃ p0 p1, o = some (b, p0, p1) ∧
          getPoints scene.length d' a b = some (x, p0, p1)) := by
  -- answers of the library for objects by number
  obtain ⟨F, hF⟩ : ∃ F, F = distAt fdist (placedObjs scene tf) := ⟨_, rfl⟩
  have ans : ∀ {i j : Nat} {o o' : Obj}, (objects scene)[i]? = some o → (objects scene)[j]? = some o' →
      DistOk dblMax (F i j) (placed (o.fcl, updateTf tf o)) (placed (o'.fcl, updateTf tf o')) := by
    intro i j o o' hi hj
    have e : F i j = fdist (o.fcl, updateTf tf o) (o'.fcl, updateTf tf o') := by
      rw [hF]
      simp [distAt, hi, hj]
    rw [e]
    exact hd _ (List.mem_map.2 ⟨o, List.mem_of_getElem? hi, rfl⟩) _
      (List.mem_map.2 ⟨o', List.mem_of_getElem? hj, rfl⟩)
  have obj : ∀ {i : Nat}, i < (objects scene).length → ∃ o, (objects scene)[i]? = some o ∧
      frameOf scene i = o.frame ∧ o.frame < scene.length := by
    intro i hi
    obtain ⟨gs, h1, -⟩ := (mem_objects scene _).1 (List.getElem_mem hi)
    exact ⟨_, List.getElem?_eq_getElem hi, by simp [frameOf, hi], (List.getElem?_eq_some_iff.1 h1).1⟩
  have ordl : ∀ p ∈ visits, (ordered (frameOf scene) p).1 < (objects scene).length ∧
      (ordered (frameOf scene) p).2 < (objects scene).length := by
    intro p hp
    obtain ⟨h1, h2⟩ := hb.1 p hp
    unfold ordered
    split
    · exact ⟨h2, h1⟩
    · exact ⟨h1, h2⟩
  have lim : ∀ {i j : Nat}, i < (objects scene).length → j < (objects scene).length →
      (pairEnt (F i j)).dist < dblMax := by
    intro i j hi hj
    obtain ⟨o, h1, -⟩ := obj hi
    obtain ⟨o', h2, -⟩ := obj hj
    have h := (ans h1 h2).1.1
    by_cases hm : (F i j).minDistance ≤ 0
    · exact ((pairEnt_sign _).2 hm).trans_lt hmax
    · unfold pairEnt; rw [if_neg hm]; exact h
  obtain ⟨d', e, I⟩ := inv_visit (dblMax := dblMax) ha (frame := frameOf scene) (F := F) visits []
    ⟨false, distInit dblMax scene.length d.data⟩ (inv_init d.data) (by
      intro p hp
      obtain ⟨h1, h2⟩ := hb.1 p hp
      obtain ⟨o, -, g1, g2⟩ := obj h1
      obtain ⟨o', -, g3, g4⟩ := obj h2
      exact ⟨g1 ▸ g2, g3 ▸ g4, lim (ordl p hp).1 (ordl p hp).2⟩)
  rw [List.append_nil] at I
  have memL : ∀ p, p ∈ visits.reverse ↔ p ∈ visits := fun p => List.mem_reverse
  -- every pair of objects is a candidate
  have cand : ∀ {i j : Nat} {o o' : Obj}, (objects scene)[i]? = some o →
      (objects scene)[j]? = some o' → o'.frame < o.frame → ¬ A s(o.frame, o'.frame) →
      ∃ p ∈ visits.reverse, Cand A (frameOf scene) o.frame o'.frame p ∧
        ordered (frameOf scene) p = (i, j) := by
    intro i j o o' hi hj hlt hA
    have fi : frameOf scene i = o.frame := by simp [frameOf, hi]
    have fj : frameOf scene j = o'.frame := by simp [frameOf, hj]
    have li := (List.getElem?_eq_some_iff.1 hi).1
    have lj := (List.getElem?_eq_some_iff.1 hj).1
    rcases hb.2 i j li lj (by rintro rfl; omega) with h | h
    · have ho : ordered (frameOf scene) (i, j) = (i, j) := by
        unfold ordered; rw [if_neg (by dsimp only; omega)]
      exact ⟨_, (memL _).2 h, ⟨by rw [ho]; exact fi, by rw [ho]; exact fj, hA⟩, ho⟩
    · have ho : ordered (frameOf scene) (j, i) = (i, j) := by
        unfold ordered; rw [if_pos (by dsimp only; omega)]
      exact ⟨_, (memL _).2 h, ⟨by rw [ho]; exact fi, by rw [ho]; exact fj, hA⟩, ho⟩
  have uncand : ∀ {a b : Nat} {p : Nat × Nat}, p ∈ visits.reverse → Cand A (frameOf scene) a b p →
      ∃ i j o o', ordered (frameOf scene) p = (i, j) ∧ (objects scene)[i]? = some o ∧
        (objects scene)[j]? = some o' ∧ o.frame = a ∧ o'.frame = b := by
    intro a b p hp hc
    have hp' := ordl p ((memL _).1 hp)
    obtain ⟨o, h1, h2, -⟩ := obj hp'.1
    obtain ⟨o', h3, h4, -⟩ := obj hp'.2
    exact ⟨_, _, o, o', rfl, h1, h3, h2 ▸ hc.1, h4 ▸ hc.2.1⟩
  have sepLt : ∀ a b : Nat, b < a → a < scene.length → Separation dblMax scene tf A a b
      (d'.data (b * scene.length + a)).dist (d'.data (b * scene.length + a)).point0
      (d'.data (b * scene.length + a)).point1 := by
    intro a b hab han
    constructor
    · intro h
      rcases I.ent a b hab han with ⟨h1, -⟩ | ⟨p, hp, hc, -⟩
      · exact h1
      · exfalso
        obtain ⟨i, j, o, o', -, h1, h2, rfl, rfl⟩ := uncand hp hc
        obtain ⟨gs, k1, k2, -, k4, -⟩ := obj_geom hs (List.mem_of_getElem? h1)
        obtain ⟨gs', l1, l2, -, l4, -⟩ := obj_geom hs (List.mem_of_getElem? h2)
        rcases h with h | h | h
        · exact hc.2.2 h
        · exact h ⟨gs, _, k1, k2, k4⟩
        · exact h ⟨gs', _, l1, l2, l4⟩
    · rintro hA ⟨gs, g, h1, h2, h3⟩ ⟨gs', g', h1', h2', h3'⟩
      obtain ⟨i, o, e1, rfl, -⟩ := geom_obj hs h1 h2 h3
      obtain ⟨j, o', e2, rfl, -⟩ := geom_obj hs h1' h2' h3'
      rcases I.ent _ _ hab han with ⟨-, hno⟩ | ⟨p, hp, hc, hent, hmin⟩
      · obtain ⟨p, hp, hc, -⟩ := cand e1 e2 hab hA
        exact absurd hc (hno p hp)
      obtain ⟨i1, j1, o1, o1', ho, g1, g2, f1, f2⟩ := uncand hp hc
      rw [ho] at hent hmin
      dsimp only at hent hmin
      -- below every pair of objects
      have low : ∀ {i j : Nat} {x y : Obj}, (objects scene)[i]? = some x → (objects scene)[j]? = some y →
          x.frame = o.frame → y.frame = o'.frame → (pairEnt (F i1 j1)).dist ≤ (pairEnt (F i j)).dist := by
        intro i j x y hx hy fx fy
        obtain ⟨p', hp', hc', ho'⟩ := cand hx hy (by omega) (by rw [fx, fy]; exact hA)
        rw [fx, fy] at hc'
        have := hmin p' hp' hc'
        rw [ho'] at this
        exact this
      have ok1 := ans g1 g2
      rw [hent]
      have sol1 : ∀ p, placed (o1.fcl, updateTf tf o1) p → Solid scene tf o.frame p := fun p hp =>
        (solid_iff hs tf _ p).2 ⟨i1, o1, g1, f1, hp⟩
      have sol2 : ∀ p, placed (o1'.fcl, updateTf tf o1') p → Solid scene tf o'.frame p := fun p hp =>
        (solid_iff hs tf _ p).2 ⟨j1, o1', g2, f2, hp⟩
      refine ⟨lim (List.getElem?_eq_some_iff.1 g1).1 (List.getElem?_eq_some_iff.1 g2).1, ?_,
        fun hx => pairEnt_gap ok1.1.2 hx, ?_⟩
      · constructor
        · intro h
          obtain ⟨q, k1, k2⟩ := ok1.2.1 ((pairEnt_sign _).1 h)
          exact ⟨q, sol1 q k1, sol2 q k2⟩
        · rintro ⟨q, k1, k2⟩
          obtain ⟨i2, o2, m1, m2, m3⟩ := (solid_iff hs tf _ q).1 k1
          obtain ⟨j2, o2', n1, n2, n3⟩ := (solid_iff hs tf _ q).1 k2
          refine (low m1 n1 m2 n2).trans ((pairEnt_sign _).2 ?_)
          by_contra hpos
          have := ((ans m1 n1).2.2 (not_le.1 hpos)).2.2.2 q q m3 n3
          rw [gap_self] at this
          exact hpos this
      · intro hx
        have hpos : ¬ (F i1 j1).minDistance ≤ 0 := fun h => absurd ((pairEnt_sign _).2 h) (not_le.2 hx)
        obtain ⟨q1, q2, q3, -⟩ := ok1.2.2 (not_le.1 hpos)
        have he : pairEnt (F i1 j1) = ⟨(F i1 j1).minDistance, (F i1 j1).near0, (F i1 j1).near1⟩ := by
          unfold pairEnt; rw [if_neg hpos]
        rw [he] at low hx ⊢
        refine ⟨sol1 _ q1, sol2 _ q2, q3, fun p q hp hq => ?_⟩
        obtain ⟨i2, o2, m1, m2, m3⟩ := (solid_iff hs tf _ p).1 hp
        obtain ⟨j2, o2', n1, n2, n3⟩ := (solid_iff hs tf _ q).1 hq
        have hl := low m1 n1 m2 n2
        have hpos2 : ¬ (F i2 j2).minDistance ≤ 0 := fun h =>
          absurd (hl.trans ((pairEnt_sign _).2 h)) (not_le.2 hx)
        have he2 : (pairEnt (F i2 j2)).dist = (F i2 j2).minDistance := by
          unfold pairEnt; rw [if_neg hpos2]
        rw [he2] at hl
        exact hl.trans (((ans m1 n1).2.2 (not_le.1 hpos2)).2.2.2 p q m3 n3)
  -- the getters
  have pos : ∀ a b : Nat, b ≤ a → a < scene.length →
      entPos scene.length (a : Int) (b : Int) = some (b * scene.length + a) := by
    intro a b hab han
    unfold entPos
    rw [if_pos (by omega)]
    simp
  have get : ∀ a b : Nat, a < scene.length → b < scene.length → a ≠ b →
      ∃ x p0 p1, getDist scene.length d' a b = some x ∧
        getPoints scene.length d' a b = some (x, p0, p1) ∧
        Separation dblMax scene tf A a b x p0 p1 := by
    intro a b han hbn hne
    rcases Nat.lt_or_gt_of_ne hne with h | h
    · refine ⟨_, _, _, ?_, ?_, (sepLt b a h hbn).symm⟩
      · unfold getDist
        dsimp only
        rw [if_pos (by omega), if_pos (by omega), pos b a h.le hbn]
        rfl
      · unfold getPoints
        rw [if_neg (by omega), pos b a h.le hbn]
        rfl
    · refine ⟨_, _, _, ?_, ?_, sepLt a b h han⟩
      · unfold getDist
        dsimp only
        rw [if_neg (by omega), if_neg (by omega), pos a b h.le han]
        rfl
      · unfold getPoints
        rw [if_pos (by omega), pos a b h.le han]
        rfl
  refine ⟨d', ?_, ?_, ?_, get, ?_⟩
  · subst hF
    exact e
  · rw [I.col]
    constructor
    · rintro ⟨p, hp, h1, h2, h3⟩
      obtain ⟨i, j, ho⟩ : ∃ i j, ordered (frameOf scene) p = (i, j) := ⟨_, _, rfl⟩
      have hl := ordl p ((memL _).1 hp)
      rw [ho] at h3 hl
      obtain ⟨o, g1, f1, -⟩ := obj hl.1
      obtain ⟨o', g2, f2, -⟩ := obj hl.2
      have hS : s(frameOf scene p.1, frameOf scene p.2) = s(o.frame, o'.frame) ∧ o.frame ≠ o'.frame := by
        dsimp only at f1 f2
        unfold ordered at ho
        split at ho
        · cases ho; rw [← f1, ← f2]; exact ⟨Sym2.eq_swap, h1.symm⟩
        · cases ho; rw [← f1, ← f2]; exact ⟨rfl, h1⟩
      rw [hS.1] at h2
      obtain ⟨q, k1, k2⟩ := (ans g1 g2).2.1 h3
      exact ⟨_, _, hS.2, h2, (overlap_solid _ _ _ _).2 ⟨q, (solid_iff hs tf _ q).2 ⟨i, o, g1, rfl, k1⟩,
        (solid_iff hs tf _ q).2 ⟨j, o', g2, rfl, k2⟩⟩⟩
    · have key : ∀ a b, b < a → ¬ A s(a, b) → Overlap scene tf a b →
          ∃ p ∈ visits.reverse, frameOf scene p.1 ≠ frameOf scene p.2 ∧
            ¬ A s(frameOf scene p.1, frameOf scene p.2) ∧
            (F (ordered (frameOf scene) p).1 (ordered (frameOf scene) p).2).minDistance ≤ 0 := by
        intro a b hab hA ho
        obtain ⟨q, k1, k2⟩ := (overlap_solid _ _ _ _).1 ho
        obtain ⟨i, o, m1, rfl, m3⟩ := (solid_iff hs tf _ q).1 k1
        obtain ⟨j, o', n1, rfl, n3⟩ := (solid_iff hs tf _ q).1 k2
        obtain ⟨p, hp, hc, hO⟩ := cand m1 n1 hab hA
        have hS : s(frameOf scene p.1, frameOf scene p.2) = s(o.frame, o'.frame) ∧
            frameOf scene p.1 ≠ frameOf scene p.2 := by
          obtain ⟨c1, c2, -⟩ := hc
          unfold ordered at c1 c2
          split at c1
          · rename_i hlt
            rw [if_pos hlt] at c2
            rw [← c1, ← c2]; exact ⟨Sym2.eq_swap, by omega⟩
          · rename_i hlt
            rw [if_neg hlt] at c2
            rw [← c1, ← c2]; exact ⟨rfl, by omega⟩
        refine ⟨p, hp, hS.2, by rw [hS.1]; exact hA, ?_⟩
        rw [hO]
        by_contra hpos
        have := ((ans m1 n1).2.2 (not_le.1 hpos)).2.2.2 q q m3 n3
        rw [gap_self] at this
        exact hpos this
      rintro ⟨a, b, hne, hA, ho⟩
      rcases Nat.lt_or_gt_of_ne hne with h | h
      · refine key b a h (by rw [Sym2.eq_swap]; exact hA) ?_
        rw [overlap_solid] at ho ⊢
        obtain ⟨p, h1, h2⟩ := ho
        exact ⟨p, h2, h1⟩
      · exact key a b h hA ho
  · intro a han
    unfold getDist
    dsimp only
    rw [if_neg (by omega), pos a a (le_refl _) han]
    simp [I.diag a han]
  · intro a han
    have get' : ∀ b : Nat, ∃ (x : ℝ) (p : V3 × V3), b < scene.length → b ≠ a →
        getDist scene.length d' a b = some x ∧
        getPoints scene.length d' a b = some (x, p.1, p.2) := by
      intro b
      by_cases h : b < scene.length ∧ b ≠ a
      · obtain ⟨x, p0, p1, h1, h2, -⟩ := get a b han h.1 h.2.symm
        exact ⟨x, (p0, p1), fun _ _ => ⟨h1, h2⟩⟩
      · exact ⟨0, (⟨0, 0, 0⟩, ⟨0, 0, 0⟩), fun k1 k2 => absurd ⟨k1, k2⟩ h⟩
    choose D P hDP using get'
    obtain ⟨m, o, e1, e2, e3, e4⟩ := minLoop_spec (n := scene.length) (d := d') (id0 := a) (D := D) (P := P)
      (List.range scene.length) dblMax none (fun t ht hne => hDP t (List.mem_range.1 ht) hne)
    refine ⟨m, o, e1, fun b hbn hne => ⟨D b, (hDP b hbn hne).1, e3 b (List.mem_range.2 hbn) hne⟩, ?_⟩
    rcases e4 with h | ⟨t, h1, h2, h3, -, h5⟩
    · exact Or.inl h
    · have ht := List.mem_range.1 h1
      exact Or.inr ⟨t, ht, h2, _, _, h5, by rw [h3]; exact (hDP t ht h2).2⟩

/-! ## A case -/

/-- Two balls of radius 1 whose centres are 4 apart. -/
def twoBalls : List (List Geom) := [[⟨true, 1, .sphere 1⟩], [⟨true, 1, .sphere 1⟩]]

def twoPoses (i : Nat) : Qutr := if i = 0 then at' 0 0 0 else at' 0 0 4

/-- Answers of the library for them. -/
noncomputable def twoDist (x y : FclGeom × Tfm) : FclDist := by
  classical exact
    if x = y then ⟨-1, ⟨0, 0, 0⟩, ⟨0, 0, 0⟩, [(2, ⟨0, 0, 0⟩, ⟨0, 0, 1⟩)]⟩
    else if x.2 = qutr2tfmat (at' 0 0 0) then ⟨2, ⟨0, 0, 1⟩, ⟨0, 0, 3⟩, []⟩
    else ⟨2, ⟨0, 0, 3⟩, ⟨0, 0, 1⟩, []⟩

theorem ball_at (c : ℝ) (p : V3) : placed (.sphere (1 * 1), qutr2tfmat (at' 0 0 c)) p ↔
    p.x * p.x + p.y * p.y + (p.z - c) * (p.z - c) ≤ 1 := by
  unfold placed
  simp only [C26_point.1, tf_at, FclGeom.solid, Ball, vdot]
  constructor
  · rintro ⟨q, h, rfl⟩
    simp only [add_zero, add_sub_cancel_right]
    linarith
  · intro h
    refine ⟨⟨p.x, p.y, p.z - c⟩, by dsimp only; linarith, ?_⟩
    obtain ⟨x, y, z⟩ := p
    simp

theorem gap_ge (p q : V3) (h : p.x * p.x + p.y * p.y + (p.z - 0) * (p.z - 0) ≤ 1)
    (h' : q.x * q.x + q.y * q.y + (q.z - 4) * (q.z - 4) ≤ 1) : 2 ≤ gap p q := by
  have h1 : p.z ≤ 1 := by nlinarith [mul_self_nonneg p.x, mul_self_nonneg p.y]
  have h2 : 3 ≤ q.z := by nlinarith [mul_self_nonneg q.x, mul_self_nonneg q.y]
  unfold gap
  apply Real.le_sqrt_of_sq_le
  nlinarith [sq_nonneg (p.x - q.x), sq_nonneg (p.y - q.y)]

theorem gap_two : gap ⟨0, 0, 1⟩ ⟨0, 0, 3⟩ = 2 := by
  unfold gap
  rw [show ((0 : ℝ) - 0) ^ 2 + (0 - 0) ^ 2 + (1 - 3) ^ 2 = 2 ^ 2 by norm_num]
  exact Real.sqrt_sq (by norm_num)

/-- They are 2 apart. -/
example (d : DistData) : ∃ d', clDistCheck 1000 twoDist twoBalls (clCreate 2) twoPoses [(0, 1)] d = some d' ∧
    d'.inCollision = false ∧ getDist 2 d' 0 1 = some 2 ∧ getDist 2 d' 1 0 = some 2 := by
  have ne : qutr2tfmat (at' 0 0 4) ≠ qutr2tfmat (at' 0 0 0) := by
    intro h
    have := congrArg (fun T => (tfmTf T ⟨0, 0, 0⟩).z) h
    simp only [C26_point.1, tf_at] at this
    norm_num at this
  have objs : placedObjs twoBalls twoPoses =
      [(.sphere (1 * 1), qutr2tfmat (at' 0 0 0)), (.sphere (1 * 1), qutr2tfmat (at' 0 0 4))] := by
    simp [placedObjs, objects, objectsFrom, createHelper, initHelper, twoBalls, twoPoses, updateTf]
  have hs : ∀ gs ∈ twoBalls, ∀ g ∈ gs, g.collision = true → Supported g := by
    intro gs h1 g h2 _
    simp [twoBalls] at h1
    subst h1
    simp at h2
    subst h2
    simp [Supported]
  obtain ⟨d', e, h1, -, h2, -⟩ := C89_dist_partial 1000 (by norm_num) twoDist twoBalls twoPoses
    (clCreate 2) (fun _ => False) (holds_create 2) hs
    (by
      rw [objs]
      have same : ∀ c : ℝ, DistOk 1000 (twoDist (.sphere (1 * 1), qutr2tfmat (at' 0 0 c))
          (.sphere (1 * 1), qutr2tfmat (at' 0 0 c))) (placed (.sphere (1 * 1), qutr2tfmat (at' 0 0 c)))
          (placed (.sphere (1 * 1), qutr2tfmat (at' 0 0 c))) := by
        intro c
        unfold twoDist
        rw [if_pos rfl]
        refine ⟨⟨by norm_num, by simp [vdot]⟩, fun _ => ⟨⟨0, 0, c⟩, ?_, ?_⟩, fun h => by norm_num at h⟩ <;>
          rw [ball_at] <;> norm_num
      intro x hx y hy
      simp only [List.mem_cons, List.not_mem_nil, or_false] at hx hy
      rcases hx with rfl | rfl <;> rcases hy with rfl | rfl
      · exact same 0
      · unfold twoDist
        rw [if_neg (fun h => ne (Prod.mk.inj h).2.symm), if_pos rfl]
        refine ⟨⟨by norm_num, by simp⟩, fun h => by norm_num at h, fun _ => ⟨?_, ?_, gap_two, ?_⟩⟩
        · rw [ball_at]; norm_num
        · rw [ball_at]; norm_num
        · intro p q hp hq
          rw [ball_at] at hp hq
          exact gap_ge p q hp hq
      · unfold twoDist
        rw [if_neg (fun h => ne (Prod.mk.inj h).2), if_neg ne]
        refine ⟨⟨by norm_num, by simp⟩, fun h => by norm_num at h, fun _ => ⟨?_, ?_, ?_, ?_⟩⟩
        · rw [ball_at]; norm_num
        · rw [ball_at]; norm_num
        · rw [gap_comm]; exact gap_two
        · intro p q hp hq
          rw [ball_at] at hp hq
          rw [gap_comm]
          exact gap_ge q p hq hp
      · exact same 4)
    [(0, 1)]
    (by
      have : (objects twoBalls).length = 2 := rfl
      rw [this]
      refine ⟨by simp, fun i j hi hj hne => ?_⟩
      have : i = 0 ∧ j = 1 ∨ i = 1 ∧ j = 0 := by omega
      rcases this with ⟨rfl, rfl⟩ | ⟨rfl, rfl⟩ <;> simp) d
  have sol : ∀ a : Nat, a < 2 → ∀ p, Solid twoBalls twoPoses a p ↔
      p.x * p.x + p.y * p.y + (p.z - 4 * a) * (p.z - 4 * a) ≤ 1 := by
    intro a ha p
    rw [← ball_at (4 * a) p]
    have : a = 0 ∨ a = 1 := by omega
    have f := fun o (h : initHelper o.geom = some o.fcl) (h' : Supported o.geom) =>
      placed_eq (o := o) h h' twoPoses p
    rcases this with rfl | rfl
    · have := f ⟨0, ⟨true, 1, .sphere 1⟩, .sphere (1 * 1)⟩ rfl (by simp [Supported])
      simp only [updateTf, twoPoses, if_true] at this
      simp only [Nat.cast_zero, mul_zero]
      rw [this]
      simp [Solid, twoBalls, twoPoses]
    · have := f ⟨1, ⟨true, 1, .sphere 1⟩, .sphere (1 * 1)⟩ rfl (by simp [Supported])
      simp only [updateTf, twoPoses, Nat.one_ne_zero, if_false] at this
      simp only [Nat.cast_one, mul_one]
      rw [mul_one] at this
      rw [this]
      simp [Solid, twoBalls, twoPoses]
  have hasG : ∀ a : Nat, a < 2 → HasGeom twoBalls a := by
    intro a ha
    have : a = 0 ∨ a = 1 := by omega
    rcases this with rfl | rfl
    · exact ⟨_, _, rfl, List.mem_cons_self .., rfl⟩
    · exact ⟨_, _, rfl, List.mem_cons_self .., rfl⟩
  have dist2 : ∀ x p0 p1, Separation 1000 twoBalls twoPoses (fun _ => False) 0 1 x p0 p1 → x = 2 := by
    intro x p0 p1 h
    obtain ⟨-, k1, -, k2⟩ := h.2 id (hasG 0 (by omega)) (hasG 1 (by omega))
    have pos : 0 < x := by
      by_contra hx
      obtain ⟨p, q1, q2⟩ := k1.1 (not_lt.1 hx)
      rw [sol 0 (by omega)] at q1
      rw [sol 1 (by omega)] at q2
      have := gap_ge p p (by simpa using q1) (by simpa using q2)
      rw [gap_self] at this
      norm_num at this
    obtain ⟨q1, q2, q3, q4⟩ := k2 pos
    apply le_antisymm
    · rw [← gap_two]
      apply q4
      · rw [sol 0 (by omega)]; norm_num
      · rw [sol 1 (by omega)]; norm_num
    · rw [← q3]
      rw [sol 0 (by omega)] at q1
      rw [sol 1 (by omega)] at q2
      exact gap_ge _ _ (by simpa using q1) (by simpa using q2)
  refine ⟨d', e, ?_, ?_, ?_⟩
  · rw [Bool.eq_false_iff]
    intro h
    obtain ⟨a, b, hne, -, ho⟩ := h1.1 h
    obtain ⟨p, q1, q2⟩ := (overlap_solid _ _ _ _).1 ho
    have la : a < 2 := by
      obtain ⟨gs, g, h, -⟩ := q1; exact (List.getElem?_eq_some_iff.1 h).1
    have lb : b < 2 := by
      obtain ⟨gs, g, h, -⟩ := q2; exact (List.getElem?_eq_some_iff.1 h).1
    rw [sol a la] at q1
    rw [sol b lb] at q2
    have : a = 0 ∧ b = 1 ∨ a = 1 ∧ b = 0 := by omega
    have hg : 2 ≤ gap p p := by
      rcases this with ⟨rfl, rfl⟩ | ⟨rfl, rfl⟩
      · exact gap_ge p p (by simpa using q1) (by simpa using q2)
      · exact gap_ge p p (by simpa using q2) (by simpa using q1)
    rw [gap_self] at hg
    norm_num at hg
  · obtain ⟨x, p0, p1, k1, -, k3⟩ := h2 0 1 (by decide) (by decide) (by decide)
    rw [dist2 x p0 p1 k3] at k1
    exact k1
  · obtain ⟨x, p0, p1, k1, -, k3⟩ := h2 1 0 (by decide) (by decide) (by decide)
    rw [dist2 x p1 p0 k3.symm] at k1
    exact k1

/-- **C89** fails for cones, which get no collision object: two cones at the same place are said not to
be in collision, and to be `DBL_MAX` apart. -/
theorem C89_violates_cone (dblMax : ℝ) (hmax : 0 < dblMax)
    (fdist : FclGeom × Tfm → FclGeom × Tfm → FclDist) (visits : List (Nat × Nat))
    (hb : AllPairs (objects [[⟨true, 1, .cone 1 1 0⟩], [⟨true, 1, .cone 1 1 0⟩]]).length visits)
    (d : DistData) :
    Overlap [[⟨true, 1, .cone 1 1 0⟩], [⟨true, 1, .cone 1 1 0⟩]] (fun _ => at' 0 0 0) 0 1 ∧
    ∃ d', clDistCheck dblMax fdist [[⟨true, 1, .cone 1 1 0⟩], [⟨true, 1, .cone 1 1 0⟩]] (clCreate 2)
      (fun _ => at' 0 0 0) visits d = some d' ∧ d'.inCollision = false ∧
      getDist 2 d' 0 1 = some dblMax ∧ ¬ dblMax ≤ 0 := by
  constructor
  · have h : (⟨true, 1, .cone 1 1 0⟩ : Geom).occupies (at' 0 0 0) ⟨0, 0, 0⟩ :=
      ⟨⟨0, 0, 0⟩, ⟨0, le_refl _, zero_le_one, by norm_num, by norm_num⟩, by simp [tf_at, vscal]⟩
    exact ⟨_, _, _, _, rfl, rfl, by simp, by simp, rfl, rfl, _, h, h⟩
  · have : visits = [] := by
      cases visits with
      | nil => rfl
      | cons p l => exact absurd (hb.1 p (by simp)).1 (Nat.not_lt_zero _)
    subst this
    refine ⟨_, rfl, rfl, ?_, not_le.2 hmax⟩
    simp [getDist, entPos, distInit, List.range_succ]

end Verif.Fcl
