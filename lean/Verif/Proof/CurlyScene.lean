/-
Lemmas for C158.
-/
import Verif.Prop.CurlySceneSpec
import Mathlib.Tactic.Tauto
import Mathlib.Data.List.Forall2

namespace Verif.CurlyScene

theorem own_nil (k : String) : own k [] = none := rfl

theorem own_cons (k : String) (s : Stmt) (b : List Stmt) :
    own k (s :: b) = (own k b).or ((s.says k).map (conv k)) := by
  unfold own
  rw [List.filterMap_cons]
  cases hs : s.says k with
  | none => simp
  | some v =>
      simp only [List.getLast?_cons, Option.map_some]
      cases (b.filterMap (Stmt.says k)).getLast? <;> rfl

theorem isas_cons (s : Stmt) (b : List Stmt) :
    isas (s :: b) = ((s.says "isa").bind Val.word).toList ++ isas b := by
  unfold isas
  rw [List.filterMap_cons]
  cases hs : s.says "isa" with
  | none => simp
  | some v => simp only [List.filterMap_cons, Option.bind_some]; cases v.word <;> rfl

theorem getProp_append (p q : Props) (k : String) : getProp (p ++ q) k = (getProp p k).or (getProp q k) := by
  induction p with
  | nil => rfl
  | cons a p ih =>
      obtain ⟨k', v⟩ := a
      simp only [List.cons_append, getProp]
      by_cases h : k' = k
      · simp [h]
      · rw [if_neg h, if_neg h, ih]

theorem getProp_flatten (l : List Props) (k : String) :
    getProp l.flatten k = l.findSome? fun p => getProp p k := by
  induction l with
  | nil => rfl
  | cons p l ih =>
      rw [List.flatten_cons, getProp_append, ih, List.findSome?_cons]
      cases getProp p k <;> rfl

theorem getProp_classProperties (p : Props) (l : List Props) (k : String) :
    getProp (classProperties p l) k = (getProp p k).or (l.findSome? fun p => getProp p k) := by
  rw [classProperties, getProp_append, getProp_flatten]

/-- The classes known agree with their definitions. -/
def EnvOk (ds : Defs) (cs : Classes) : Prop :=
  ∀ c q, findClass cs c = some q → (∀ k, k ≠ "isa" → getProp q k = classVal ds c k) ∧
    ∃ pre b ds', ds = pre ++ (c, b) :: ds' ∧ (∀ d ∈ pre, d.1 ≠ c) ∧ ∀ x, .str x ∈ propertyClasses q ↔ Named ds' b x

/-- Properties found for the classes that are named. -/
abbrev Found (cs : Classes) (l : List String) (cl : List Props) : Prop :=
  List.Forall₂ (fun c q => findClass cs c = some q) l cl

theorem Found.val {ds : Defs} {cs : Classes} (h : EnvOk ds cs) {l : List String} {cl : List Props}
    (hf : Found cs l cl) (k : String) (hk : k ≠ "isa") :
    (cl.findSome? fun p => getProp p k) = l.findSome? fun c => classVal ds c k := by
  induction hf with
  | nil => rfl
  | cons hc _ ih =>
      rw [List.findSome?_cons, List.findSome?_cons, ih, (h _ _ hc).1 k hk]

theorem Found.reverse {cs : Classes} {l : List String} {cl : List Props} (hf : Found cs l cl) :
    Found cs l.reverse cl.reverse := List.rel_reverse hf

theorem getClass_some {cs : Classes} {v : Val} {q : Props} (h : getClass cs v = some q) :
    ∃ c, v = .str c ∧ findClass cs c = some q := by
  cases v <;> simp [getClass] at h
  exact ⟨_, rfl, h⟩

theorem addPropBool_some {p p' : Props} {k : String} {v : Val} (h : addPropBool p k v = some p')
    (hk : k = "visual" ∨ k = "collision" ∨ k = "no-shadow") : p' = (k, conv k v) :: p := by
  cases v <;> simp [addPropBool] at h
  subst h
  simp [conv, hk]

theorem conv_of_not (k : String) (v : Val) (h : ¬ (k = "visual" ∨ k = "collision" ∨ k = "no-shadow")) :
    conv k v = v := if_neg h

theorem mem_propertyClasses (p : Props) (v : Val) : v ∈ propertyClasses p ↔ ("isa", v) ∈ p := by
  simp [propertyClasses]

/-- One property more. -/
theorem step_prop (k k' : String) (v : Val) (b : List Stmt) (p : Props) :
    (own k b).or (getProp ((k', conv k' v) :: p) k) = (own k (.prop k' v :: b)).or (getProp p k) := by
  rw [own_cons]
  simp only [getProp, Stmt.says]
  by_cases h : k' = k
  · subst h
    simp only [if_true, Option.map_some]
    cases own k' b <;> rfl
  · simp only [if_neg h, Option.map_none]
    cases own k b <;> rfl

theorem says_isa (v : Val) : (Stmt.prop "isa" v).says "isa" = some v := by simp [Stmt.says]

theorem says_other (k : String) (v : Val) (h : k ≠ "isa") : (Stmt.prop k v).says "isa" = none := by
  simp [Stmt.says, h]

/-- What loops over statements of classes and geometry have in common. -/
structure LoopSpec (cs : Classes) (b : List Stmt) (p : Props) (pc : List Props) (r : Props × List Props) : Prop where
  val : ∀ k, getProp r.1 k = (own k b).or (getProp p k)
  cls : ∃ cl, r.2 = cl.reverse ++ pc ∧ Found cs (isas b) cl
  isa : ∀ c, ("isa", Val.str c) ∈ r.1 ↔ c ∈ isas b ∨ ("isa", Val.str c) ∈ p

theorem LoopSpec.nil (cs : Classes) (p : Props) (pc : List Props) : LoopSpec cs [] p pc (p, pc) :=
  ⟨fun _ => rfl, ⟨[], rfl, .nil⟩, fun c => by simp [isas]⟩

theorem LoopSpec.prop {cs : Classes} {b : List Stmt} {p : Props} {pc : List Props} {r : Props × List Props}
    {k : String} {v : Val} (hk : k ≠ "isa") (h : LoopSpec cs b ((k, conv k v) :: p) pc r) :
    LoopSpec cs (.prop k v :: b) p pc r := by
  refine ⟨fun k' => ?_, ?_, fun c => ?_⟩
  · rw [h.val, step_prop]
  · obtain ⟨cl, h1, h2⟩ := h.cls
    exact ⟨cl, h1, by rw [isas_cons, says_other k v hk]; exact h2⟩
  · rw [h.isa, isas_cons, says_other k v hk]
    have : "isa" ≠ k := fun e => hk e.symm
    simp [this]

theorem LoopSpec.isaStep {cs : Classes} {b : List Stmt} {p q : Props} {pc : List Props} {r : Props × List Props}
    {c : String} (hc : findClass cs c = some q) (h : LoopSpec cs b (("isa", .str c) :: p) (q :: pc) r) :
    LoopSpec cs (.prop "isa" (.str c) :: b) p pc r := by
  have hi : isas (.prop "isa" (.str c) :: b) = c :: isas b := by
    rw [isas_cons, says_isa]; rfl
  refine ⟨fun k' => ?_, ?_, fun c' => ?_⟩
  · have := step_prop k' "isa" (.str c) b p
    rw [conv_of_not "isa" _ (by decide)] at this
    rw [h.val, this]
  · obtain ⟨cl, h1, h2⟩ := h.cls
    exact ⟨q :: cl, by simp [h1], by rw [hi]; exact .cons hc h2⟩
  · rw [h.isa, hi]
    simp only [List.mem_cons, Prod.mk.injEq, true_and, Val.str.injEq]
    tauto

theorem classLoop_spec (cs : Classes) (b : List Stmt) : ∀ (p : Props) (pc : List Props) (r : Props × List Props),
    classLoop cs b p pc = some r → LoopSpec cs b p pc r := by
  induction b with
  | nil => intro p pc r h; simp only [classLoop, Option.some.injEq] at h; subst h; exact .nil cs p pc
  | cons s b ih =>
      intro p pc r h
      cases s with
      | frame => simp [classLoop] at h
      | geom => simp [classLoop] at h
      | prop k v =>
          rw [classLoop] at h
          by_cases h1 : k ∈ classKeys
          · rw [if_pos h1] at h
            have hc : ¬ (k = "visual" ∨ k = "collision" ∨ k = "no-shadow") := by
              rintro (rfl | rfl | rfl) <;> exact absurd h1 (by decide)
            refine .prop (fun e => ?_) ?_
            · subst e; exact absurd h1 (by decide)
            · rw [conv_of_not k v hc]; exact ih _ _ _ h
          · rw [if_neg h1] at h
            by_cases h2 : k = "visual" ∨ k = "collision"
            · rw [if_pos h2, Option.bind_eq_some_iff] at h
              obtain ⟨p', hp, h⟩ := h
              have := addPropBool_some hp (by tauto)
              subst this
              refine .prop (fun e => ?_) (ih _ _ _ h)
              subst e; exact absurd h2 (by decide)
            · rw [if_neg h2] at h
              by_cases h3 : k = "isa"
              · rw [if_pos h3, Option.bind_eq_some_iff] at h
                obtain ⟨q, hq, h⟩ := h
                obtain ⟨c, rfl, hc⟩ := getClass_some hq
                subst h3
                exact .isaStep hc (ih _ _ _ h)
              · rw [if_neg h3] at h; exact absurd h (by simp)

theorem geomLoop_spec (cs : Classes) (b : List Stmt) : ∀ (p : Props) (pc : List Props) (r : Props × List Props),
    geomLoop cs b p pc = some r → LoopSpec cs b p pc r := by
  induction b with
  | nil => intro p pc r h; simp only [geomLoop, Option.some.injEq] at h; subst h; exact .nil cs p pc
  | cons s b ih =>
      intro p pc r h
      cases s with
      | frame => simp [geomLoop] at h
      | geom => simp [geomLoop] at h
      | prop k v =>
          rw [geomLoop] at h
          by_cases h1 : k ∈ geomKeys
          · rw [if_pos h1] at h
            have hc : ¬ (k = "visual" ∨ k = "collision" ∨ k = "no-shadow") := by
              rintro (rfl | rfl | rfl) <;> exact absurd h1 (by decide)
            refine .prop (fun e => ?_) ?_
            · subst e; exact absurd h1 (by decide)
            · rw [conv_of_not k v hc]; exact ih _ _ _ h
          · rw [if_neg h1] at h
            by_cases h2 : k = "visual" ∨ k = "collision" ∨ k = "no-shadow"
            · rw [if_pos h2, Option.bind_eq_some_iff] at h
              obtain ⟨p', hp, h⟩ := h
              have := addPropBool_some hp h2
              subst this
              refine .prop (fun e => ?_) (ih _ _ _ h)
              subst e; exact absurd h2 (by decide)
            · rw [if_neg h2] at h
              by_cases h3 : k = "isa"
              · rw [if_pos h3, Option.bind_eq_some_iff] at h
                obtain ⟨q, hq, h⟩ := h
                obtain ⟨c, rfl, hc⟩ := getClass_some hq
                subst h3
                exact .isaStep hc (ih _ _ _ h)
              · rw [if_neg h3] at h; exact absurd h (by simp)

theorem mem_found {cs : Classes} {l : List String} {cl : List Props} (h : Found cs l cl) :
    (∀ c ∈ l, ∃ q ∈ cl, findClass cs c = some q) ∧ ∀ q ∈ cl, ∃ c ∈ l, findClass cs c = some q := by
  induction h with
  | nil => simp
  | cons hc _ ih =>
      constructor
      · intro c h
        rcases List.mem_cons.1 h with rfl | h
        · exact ⟨_, by simp, hc⟩
        · obtain ⟨q, hq, e⟩ := ih.1 c h
          exact ⟨q, by simp [hq], e⟩
      · intro q h
        rcases List.mem_cons.1 h with rfl | h
        · exact ⟨_, by simp, hc⟩
        · obtain ⟨c, hq, e⟩ := ih.2 q h
          exact ⟨c, by simp [hq], e⟩

theorem split_unique {α : Type} {c : String} {l pre pre' : List (String × α)} {b b' : α} {t t' : List (String × α)}
    (h : l = pre ++ (c, b) :: t) (h' : l = pre' ++ (c, b') :: t') (hp : ∀ d ∈ pre, d.1 ≠ c)
    (hp' : ∀ d ∈ pre', d.1 ≠ c) : b = b' ∧ t = t' := by
  subst h
  rcases List.append_eq_append_iff.1 h' with ⟨s, e1, e2⟩ | ⟨s, e1, e2⟩
  · cases s with
    | nil => simp at e2; exact ⟨e2.1, e2.2⟩
    | cons x s =>
        simp at e2
        exact absurd (by rw [← e2.1] : x.1 = c) (hp' x (by rw [e1]; simp))
  · cases s with
    | nil => simp at e2; exact ⟨e2.1.symm, e2.2.symm⟩
    | cons x s =>
        simp at e2
        exact absurd (by rw [← e2.1] : x.1 = c) (hp x (by rw [e1]; simp))

/-- The classes of a block, from its own and those of its classes. -/
theorem named_iff {ds : Defs} {cs : Classes} (hE : EnvOk ds cs) (b : List Stmt) (cl : List Props)
    (hf : Found cs (isas b) cl) (p : Props) (hp : ∀ c, ("isa", Val.str c) ∈ p ↔ c ∈ isas b) (cl' : List Props)
    (hcl : ∀ q, q ∈ cl' ↔ q ∈ cl) (x : String) :
    .str x ∈ propertyClasses (classProperties p cl') ↔ Named ds b x := by
  rw [mem_propertyClasses, classProperties, List.mem_append, hp, List.mem_flatten]
  constructor
  · rintro (h | ⟨q, hq, hx⟩)
    · exact .here _ _ _ h
    · obtain ⟨c, hc, e⟩ := (mem_found hf).2 q ((hcl q).1 hq)
      obtain ⟨-, pre, b', ds', h1, h2, h3⟩ := hE c q e
      exact .via ds pre b b' c x ds' hc h1 h2 ((h3 x).1 ((mem_propertyClasses q _).2 hx))
  · intro h
    cases h with
    | here _ _ _ h => exact .inl h
    | via _ pre _ b' c _ ds' hc h1 h2 h3 =>
        right
        obtain ⟨q, hq, e⟩ := (mem_found hf).1 c hc
        obtain ⟨-, pre', b'', ds'', k1, k2, k3⟩ := hE c q e
        obtain ⟨rfl, rfl⟩ := split_unique h1 k1 h2 k2
        exact ⟨q, (hcl q).2 hq, (mem_propertyClasses q _).1 ((k3 x).2 h3)⟩

theorem addClass_env (ds : Defs) (cs cs' : Classes) (n : String) (b : List Stmt) (hE : EnvOk ds cs)
    (h : addClass cs n b = some cs') : EnvOk ((n, b) :: ds) cs' := by
  unfold addClass at h
  cases hn : findClass cs n with
  | some _ => simp [hn] at h
  | none =>
      simp only [hn, Option.map_eq_some_iff] at h
      obtain ⟨r, hr, rfl⟩ := h
      have hL := classLoop_spec cs b [] [] r hr
      obtain ⟨cl, hcl, hf⟩ := hL.cls
      rw [List.append_nil] at hcl
      intro c q hc
      rw [findClass] at hc
      by_cases hnc : n = c
      · subst hnc
        rw [if_pos rfl, Option.some.injEq] at hc
        subst hc
        refine ⟨fun k hk => ?_, [], b, ds, rfl, by simp, fun x => ?_⟩
        · rw [getProp_classProperties, hL.val, hcl, hf.reverse.val hE k hk, classVal, if_pos rfl]
          simp [getProp]
        · exact named_iff hE b cl hf r.1 (fun c => by rw [hL.isa]; simp) r.2 (fun q => by rw [hcl]; simp) x
      · rw [if_neg hnc] at hc
        obtain ⟨h1, pre, b', ds', h2, h3, h4⟩ := hE c q hc
        refine ⟨fun k hk => by rw [h1 k hk, classVal, if_neg hnc], (n, b) :: pre, b', ds', by rw [h2]; rfl, ?_, h4⟩
        intro d hd
        rcases List.mem_cons.1 hd with rfl | hd
        · exact hnc
        · exact h3 d hd

theorem geomLoop_parent (cs : Classes) (b : List Stmt) : ∀ (p : Props) (pc : List Props) (r : Props × List Props),
    geomLoop cs b p pc = some r → own "parent" b = none := by
  induction b with
  | nil => intros; rfl
  | cons s b ih =>
      intro p pc r h
      cases s with
      | frame => simp [geomLoop] at h
      | geom => simp [geomLoop] at h
      | prop k v =>
          by_cases hk : k = "parent"
          · subst hk
            rw [geomLoop, if_neg (by decide), if_neg (by decide), if_neg (by decide)] at h
            exact absurd h (by simp)
          · have hs : (Stmt.prop k v).says "parent" = none := by simp [Stmt.says, hk]
            rw [own_cons, hs]
            have : ∃ p pc, geomLoop cs b p pc = some r := by
              rw [geomLoop] at h
              by_cases h1 : k ∈ geomKeys
              · rw [if_pos h1] at h; exact ⟨_, _, h⟩
              · rw [if_neg h1] at h
                by_cases h2 : k = "visual" ∨ k = "collision" ∨ k = "no-shadow"
                · rw [if_pos h2, Option.bind_eq_some_iff] at h
                  obtain ⟨p', -, h⟩ := h
                  exact ⟨_, _, h⟩
                · rw [if_neg h2] at h
                  by_cases h3 : k = "isa"
                  · rw [if_pos h3, Option.bind_eq_some_iff] at h
                    obtain ⟨q, -, h⟩ := h
                    exact ⟨_, _, h⟩
                  · rw [if_neg h3] at h; exact absurd h (by simp)
            obtain ⟨p', pc', h'⟩ := this
            rw [ih p' pc' r h']; rfl

theorem addGeom_spec {ds : Defs} {cs : Classes} (hE : EnvOk ds cs) (b : List Stmt) (par : String)
    (r : String × Geom) (h : addGeom cs b par = some r) :
    GeomSpec ds b r.2 ∧ ((∀ c, classVal ds c "parent" = none) → r.1 = par) := by
  simp only [addGeom, insertGeom, Option.bind_eq_some_iff, Option.map_eq_some_iff] at h
  obtain ⟨l, hl, w, hw, par', hp', n, hn, rfl⟩ := h
  have hL := geomLoop_spec cs b [] [] l hl
  obtain ⟨cl, hcl, hf⟩ := hL.cls
  rw [List.append_nil] at hcl
  have hval : ∀ k, k ≠ "isa" → getProp (classProperties l.1 l.2) k = geomVal ds b k := by
    intro k hk
    rw [getProp_classProperties, hL.val, hcl, hf.reverse.val hE k hk]
    simp [getProp, geomVal]
  refine ⟨⟨?_, hval, fun c => named_iff hE b cl hf l.1 (fun c => by rw [hL.isa]; simp) l.2
    (fun q => by rw [hcl]; simp) c⟩, fun hno => ?_⟩
  · simp only [whatOf, hval "shape" (by decide), hval "mesh" (by decide)] at hw
    cases h1 : geomVal ds b "shape" with
    | some v =>
        cases v <;> simp [h1] at hw
        exact .inl ⟨_, rfl, hw.2.symm⟩
    | none =>
        cases h2 : geomVal ds b "mesh" with
        | none => simp [h1, h2] at hw
        | some m => simp [h1, h2] at hw; exact .inr ⟨rfl, m, rfl, hw.symm⟩
  · have hno : geomVal ds b "parent" = none := by
      rw [geomVal, geomLoop_parent cs b _ _ _ hl, Option.none_or, List.findSome?_eq_none_iff]
      exact fun c _ => hno c
    simp only [parentOf, hval "parent" (by decide), hno, Option.some.injEq] at hp'
    rw [← hp', Option.some.injEq] at hn
    exact hn.symm

theorem insertFrame_spec (o : Occ) (p : Props) (f : Frame)
    (hp : ∀ k, k ≠ "isa" → getProp p k = frameVal o.defs o.body k)
    (h : insertFrame o.name p o.encl = some f) : FrameSpec o f := by
  simp only [insertFrame, Option.bind_eq_some_iff] at h
  obtain ⟨par, hpar, j, hj, h⟩ := h
  by_cases hne : par = some o.name
  · rw [if_pos hne] at h; exact absurd h (by simp)
  · rw [if_neg hne, Option.some.injEq] at h
    subst h
    refine ⟨rfl, ?_, hp _ (by decide), ?_, ?_⟩
    · rw [parentOf, hp _ (by decide)] at hpar
      show par = _
      cases hv : frameVal o.defs o.body "parent" with
      | none => simp only [hv, Option.some.injEq] at hpar; exact hpar.symm
      | some v => cases v <;> simp [hv] at hpar; exact hpar.symm
    · show getOrientation p = _
      rw [getOrientation, hp _ (by decide), hp _ (by decide)]
      cases frameVal o.defs o.body "quaternion" <;> cases frameVal o.defs o.body "rpy" <;> rfl
    · unfold jointSpec
      simp only [jointOf, hp "type" (by decide), hp "offset" (by decide), hp "variable" (by decide),
        hp "axis" (by decide)] at hj
      cases ht : (frameVal o.defs o.body "type").getD (.str "fixed") with
      | num => simp [ht] at hj
      | vec => simp [ht] at hj
      | bool => simp [ht] at hj
      | str t =>
          simp only [ht] at hj
          by_cases h1 : t = "fixed"
          · rw [if_pos h1, Option.some.injEq] at hj
            exact .inl ⟨by rw [h1], hj.symm⟩
          · rw [if_neg h1] at hj
            right
            by_cases h2 : t = "prismatic"
            · rw [if_pos h2, Option.map_eq_some_iff] at hj
              obtain ⟨a, ha, hj⟩ := hj
              exact ⟨a, ha, .inl ⟨by rw [h2], hj.symm⟩⟩
            · rw [if_neg h2] at hj
              by_cases h3 : t = "revolute"
              · rw [if_pos h3, Option.map_eq_some_iff] at hj
                obtain ⟨a, ha, hj⟩ := hj
                exact ⟨a, ha, .inr ⟨by rw [h3], hj.symm⟩⟩
              · rw [if_neg h3] at hj; exact absurd hj (by simp)

mutual
/-- The geometry within a statement, with the frame it is in. -/
def Stmt.geoms (encl : String) : Stmt → List (String × List Stmt)
  | .prop _ _ => []
  | .frame n b => stmtsGeoms n b
  | .geom b => [(encl, b)]

def stmtsGeoms (encl : String) : List Stmt → List (String × List Stmt)
  | [] => []
  | s :: b => s.geoms encl ++ stmtsGeoms encl b
end

/-- Geometry that belongs to a body within a frame. -/
def GeomRel (ds : Defs) (e : String × List Stmt) (g : String × Geom) : Prop :=
  GeomSpec ds e.2 g.2 ∧ ((∀ c, classVal ds c "parent" = none) → g.1 = e.1)

/-- What the loop over the statements of a frame does. -/
structure FSpec (ds : Defs) (cs : Classes) (b : List Stmt) (os : List Occ) (ges : List (String × List Stmt))
    (l l' : Loop) : Prop where
  val : ∀ k, k ≠ "isa" → getProp l'.props k = (own k b).or (getProp l.props k)
  cls : ∃ cl, l'.classes = cl.reverse ++ l.classes ∧ Found cs (isas b) cl
  acc : ∃ fs gs, l'.acc = ⟨l.acc.frames ++ fs, l.acc.geoms ++ gs⟩ ∧ List.Forall₂ FrameSpec os fs ∧
    List.Forall₂ (GeomRel ds) ges gs

theorem frame_done {ds : Defs} {cs : Classes} (hE : EnvOk ds cs) {b : List Stmt} {os : List Occ}
    {ges : List (String × List Stmt)} {a : Acc} {l' : Loop} (h : FSpec ds cs b os ges ⟨[], [], a⟩ l') (n : String)
    (encl : Option String) (f : Frame)
    (hf : insertFrame n (classProperties l'.props l'.classes.reverse) encl = some f) :
    FrameSpec ⟨ds, encl, n, b⟩ f := by
  refine insertFrame_spec ⟨ds, encl, n, b⟩ _ f (fun k hk => ?_) hf
  obtain ⟨cl, h1, h2⟩ := h.cls
  rw [getProp_classProperties, h.val k hk, h1]
  simp only [List.append_nil, List.reverse_reverse, getProp, Option.or_none]
  rw [h2.val hE k hk, frameVal]

theorem isas_block (s : Stmt) (b : List Stmt) (h : ∀ k, s.says k = none) : isas (s :: b) = isas b := by
  rw [isas_cons, h]; rfl

theorem own_block (k : String) (s : Stmt) (b : List Stmt) (h : ∀ k, s.says k = none) : own k (s :: b) = own k b := by
  rw [own_cons, h]; simp

theorem FSpec.append {ds : Defs} {cs : Classes} {s : Stmt} {b : List Stmt} {os os' : List Occ}
    {ges ges' : List (String × List Stmt)} {l l' l'' : Loop} (h : FSpec ds cs [s] os ges l l')
    (h' : FSpec ds cs b os' ges' l' l'') : FSpec ds cs (s :: b) (os ++ os') (ges ++ ges') l l'' := by
  refine ⟨fun k hk => ?_, ?_, ?_⟩
  · rw [h'.val k hk, h.val k hk, own_cons k s b, own_cons k s [], own_nil]
    cases own k b <;> simp
  · obtain ⟨cl, e1, e2⟩ := h.cls
    obtain ⟨cl', e1', e2'⟩ := h'.cls
    refine ⟨cl ++ cl', by rw [e1', e1]; simp, ?_⟩
    have : isas (s :: b) = isas [s] ++ isas b := by rw [isas_cons, isas_cons s []]; simp [isas]
    rw [this]
    exact List.rel_append e2 e2'
  · obtain ⟨fs, gs, e1, e2, e3⟩ := h.acc
    obtain ⟨fs', gs', e1', e2', e3'⟩ := h'.acc
    exact ⟨fs ++ fs', gs ++ gs', by rw [e1', e1]; simp, List.rel_append e2 e2', List.rel_append e3 e3'⟩

mutual
theorem frameStmt_spec (ds : Defs) (cs : Classes) (hE : EnvOk ds cs) (name : String) (parent : Option String)
    (s : Stmt) (l l' : Loop) (h : frameStmt cs name parent s l = some l') :
    FSpec ds cs [s] (s.occs ds name) (s.geoms name) l l' := by
  match s, h with
  | .prop k v, h =>
      simp only [frameStmt] at h
      simp only [Stmt.occs, Stmt.geoms]
      have hprop : ∀ (hk : k ≠ "isa") (hc : ¬ (k = "visual" ∨ k = "collision" ∨ k = "no-shadow")),
          FSpec ds cs [.prop k v] [] [] l { l with props := addProp l.props k v } := by
        intro hk hc
        refine ⟨fun k' _ => ?_, ⟨[], rfl, ?_⟩, ⟨[], [], by simp, .nil, .nil⟩⟩
        · have := step_prop k' k v [] l.props
          rw [conv_of_not k v hc, own_nil, Option.none_or] at this
          exact this
        · rw [isas_cons, says_other k v hk]; exact .nil
      by_cases h1 : k ∈ frameKeys
      · rw [if_pos h1, Option.some.injEq] at h
        subst h
        refine hprop ?_ ?_
        · rintro rfl; exact absurd h1 (by decide)
        · rintro (rfl | rfl | rfl) <;> exact absurd h1 (by decide)
      · rw [if_neg h1] at h
        by_cases h2 : k = "parent"
        · rw [if_pos h2] at h
          cases parent with
          | some _ => exact absurd h (by simp)
          | none =>
              simp only [Option.some.injEq] at h
              subst h
              subst h2
              exact hprop (by decide) (by decide)
        · rw [if_neg h2] at h
          by_cases h3 : k = "isa"
          · rw [if_pos h3, Option.map_eq_some_iff] at h
            obtain ⟨q, hq, rfl⟩ := h
            obtain ⟨c, rfl, hc⟩ := getClass_some hq
            subst h3
            refine ⟨fun k' hk' => ?_, ⟨[q], rfl, ?_⟩, ⟨[], [], by simp, .nil, .nil⟩⟩
            · have : "isa" ≠ k' := fun e => hk' e.symm
              simp [own_cons, own_nil, Stmt.says, this]
            · rw [isas_cons, says_isa]; exact .cons hc .nil
          · rw [if_neg h3] at h; exact absurd h (by simp)
  | .frame n b, h =>
      simp only [frameStmt, Option.bind_eq_some_iff, Option.map_eq_some_iff] at h
      obtain ⟨l1, h1, f, hf, rfl⟩ := h
      have hs := frameStmts_spec ds cs hE n (some name) b ⟨[], [], l.acc⟩ l1 h1
      have hfr := frame_done hE hs n (some name) f hf
      obtain ⟨fs, gs, e1, e2, e3⟩ := hs.acc
      refine ⟨fun k _ => ?_, ⟨[], rfl, ?_⟩, ⟨fs ++ [f], gs, ?_, ?_, ?_⟩⟩
      · rw [own_block k _ _ (fun _ => rfl), own_nil, Option.none_or]
      · rw [isas_block _ _ (fun _ => rfl)]; exact .nil
      · simp [e1]
      · simp only [Stmt.occs]; exact List.rel_append e2 (.cons hfr .nil)
      · simp only [Stmt.geoms]; exact e3
  | .geom b, h =>
      simp only [frameStmt, Option.map_eq_some_iff] at h
      obtain ⟨g, hg, rfl⟩ := h
      refine ⟨fun k _ => ?_, ⟨[], rfl, ?_⟩, ⟨[], [g], by simp, ?_, ?_⟩⟩
      · rw [own_block k _ _ (fun _ => rfl), own_nil, Option.none_or]
      · rw [isas_block _ _ (fun _ => rfl)]; exact .nil
      · simp only [Stmt.occs]; exact .nil
      · simp only [Stmt.geoms]
        exact .cons (addGeom_spec hE b name g hg) .nil

theorem frameStmts_spec (ds : Defs) (cs : Classes) (hE : EnvOk ds cs) (name : String) (parent : Option String)
    (b : List Stmt) (l l' : Loop) (h : frameStmts cs name parent b l = some l') :
    FSpec ds cs b (stmtsOccs ds name b) (stmtsGeoms name b) l l' := by
  match b, h with
  | [], h =>
      simp only [frameStmts, Option.some.injEq] at h
      subst h
      simp only [stmtsOccs, stmtsGeoms]
      exact ⟨fun _ _ => rfl, ⟨[], rfl, .nil⟩, ⟨[], [], by simp, .nil, .nil⟩⟩
  | s :: b, h =>
      simp only [frameStmts, Option.bind_eq_some_iff] at h
      obtain ⟨l1, h1, h2⟩ := h
      simp only [stmtsOccs, stmtsGeoms]
      exact (frameStmt_spec ds cs hE name parent s l l1 h1).append (frameStmts_spec ds cs hE name parent b l1 l' h2)
end

/-- All geometry of a file with the classes before it and the frame it is in. -/
def allGeoms : Defs → List Thing → List (Defs × String × List Stmt)
  | _, [] => []
  | ds, .cls n b :: ts => allGeoms ((n, b) :: ds) ts
  | ds, .frame n b :: ts => (stmtsGeoms n b).map (fun e => (ds, e)) ++ allGeoms ds ts

theorem addThings_spec (ts : List Thing) : ∀ (ds : Defs) (cs : Classes) (a a' : Acc), EnvOk ds cs →
    addThings ts cs a = some a' → ∃ fs gs, a' = ⟨a.frames ++ fs, a.geoms ++ gs⟩ ∧
      List.Forall₂ FrameSpec (occs ds ts) fs ∧
      List.Forall₂ (fun (e : Defs × String × List Stmt) g => GeomRel e.1 e.2 g) (allGeoms ds ts) gs := by
  induction ts with
  | nil =>
      intro ds cs a a' _ h
      simp only [addThings, Option.some.injEq] at h
      subst h
      exact ⟨[], [], by simp, .nil, .nil⟩
  | cons t ts ih =>
      intro ds cs a a' hE h
      cases t with
      | cls n b =>
          simp only [addThings, Option.bind_eq_some_iff] at h
          obtain ⟨cs', h1, h2⟩ := h
          exact ih _ _ _ _ (addClass_env ds cs cs' n b hE h1) h2
      | frame n b =>
          simp only [addThings, addFrame, Option.bind_eq_some_iff, Option.map_eq_some_iff] at h
          obtain ⟨a1, ⟨l, h1, f, hf, rfl⟩, h2⟩ := h
          have hs := frameStmts_spec ds cs hE n none b ⟨[], [], a⟩ l h1
          have hfr := frame_done hE hs n none f hf
          obtain ⟨fs, gs, e1, e2, e3⟩ := hs.acc
          obtain ⟨fs', gs', e1', e2', e3'⟩ := ih _ _ _ _ hE h2
          refine ⟨fs ++ [f] ++ fs', gs ++ gs', by rw [e1', e1]; simp, ?_, ?_⟩
          · exact List.rel_append (List.rel_append e2 (.cons hfr .nil)) e2'
          · refine List.rel_append ?_ e3'
            exact List.forall₂_map_left_iff.2 e3

/-! ### Geometry by frame -/

theorem classVal_none (k : String) (ds : Defs) (h : ∀ d ∈ ds, own k d.2 = none) (c : String) :
    classVal ds c k = none := by
  induction ds generalizing c with
  | nil => rfl
  | cons d ds ih =>
      obtain ⟨n, b⟩ := d
      have ih' := ih fun d hd => h d (by simp [hd])
      rw [classVal]
      by_cases hn : n = c
      · rw [if_pos hn, h (n, b) (by simp), Option.none_or, List.findSome?_eq_none_iff]
        exact fun c _ => ih' c
      · rw [if_neg hn]; exact ih' c

mutual
theorem stmtGeoms_other (ds : Defs) (encl n : String) (s : Stmt) (hn : n ≠ encl)
    (h : ∀ o ∈ s.occs ds encl, o.name ≠ n) : (s.geoms encl).filter (fun e => e.1 = n) = [] := by
  match s with
  | .prop _ _ => simp [Stmt.geoms]
  | .geom b => simp only [Stmt.geoms, List.filter_cons, List.filter_nil, decide_eq_true_eq]; rw [if_neg (Ne.symm hn)]
  | .frame m b =>
      simp only [Stmt.occs, List.mem_append, List.mem_singleton] at h
      simp only [Stmt.geoms]
      refine stmtsGeoms_other ds m n b (fun e => ?_) fun o ho => h o (.inl ho)
      exact h ⟨ds, some encl, m, b⟩ (.inr rfl) e.symm

theorem stmtsGeoms_other (ds : Defs) (encl n : String) (b : List Stmt) (hn : n ≠ encl)
    (h : ∀ o ∈ stmtsOccs ds encl b, o.name ≠ n) : (stmtsGeoms encl b).filter (fun e => e.1 = n) = [] := by
  match b with
  | [] => simp [stmtsGeoms]
  | s :: b =>
      simp only [stmtsOccs, List.mem_append] at h
      simp only [stmtsGeoms, List.filter_append]
      rw [stmtGeoms_other ds encl n s hn fun o ho => h o (.inl ho),
        stmtsGeoms_other ds encl n b hn fun o ho => h o (.inr ho)]
      rfl
end

theorem stmtsGeoms_self (ds : Defs) (encl : String) (b : List Stmt)
    (h : ∀ o ∈ stmtsOccs ds encl b, o.name ≠ encl) :
    (stmtsGeoms encl b).filter (fun e => e.1 = encl) = (directGeoms b).map fun g => (encl, g) := by
  induction b with
  | nil => simp [stmtsGeoms, directGeoms]
  | cons s b ih =>
      simp only [stmtsOccs, List.mem_append] at h
      simp only [stmtsGeoms, List.filter_append]
      rw [ih fun o ho => h o (.inr ho)]
      cases s with
      | prop => simp [Stmt.geoms, directGeoms, List.filterMap_cons, Stmt.geomBody]
      | geom => simp [Stmt.geoms, directGeoms, Stmt.geomBody]
      | frame m c =>
          have : (Stmt.geoms encl (.frame m c)).filter (fun e => e.1 = encl) = [] := by
            simp only [Stmt.geoms]
            simp only [Stmt.occs, List.mem_append, List.mem_singleton] at h
            refine stmtsGeoms_other ds m encl c (fun e => ?_) fun o ho => h o (.inl (.inl ho))
            exact h ⟨ds, some encl, m, c⟩ (.inl (.inr rfl)) e.symm
          rw [this]
          simp [directGeoms, List.filterMap_cons, Stmt.geomBody]

/-- The names of frames. -/
abbrev names (l : List Occ) : List String := l.map Occ.name

theorem not_name {l : List Occ} {n : String} (h : n ∉ names l) : ∀ o ∈ l, o.name ≠ n := by
  intro o ho e
  exact h (List.mem_map.2 ⟨o, ho, e⟩)

mutual
theorem stmtGeoms_at (ds : Defs) (encl : String) (s : Stmt) (hd : (names (s.occs ds encl)).Nodup)
    (he : encl ∉ names (s.occs ds encl)) (o : Occ) (ho : o ∈ s.occs ds encl) :
    (s.geoms encl).filter (fun e => e.1 = o.name) = (directGeoms o.body).map fun g => (o.name, g) := by
  match s with
  | .prop _ _ => simp [Stmt.occs] at ho
  | .geom b => simp [Stmt.occs] at ho
  | .frame m b =>
      simp only [Stmt.occs, names, List.map_append, List.map_cons, List.map_nil] at hd he ho
      simp only [Stmt.geoms]
      rw [List.nodup_append] at hd
      obtain ⟨h1, -, h3⟩ := hd
      have hm : m ∉ names (stmtsOccs ds m b) := fun hm => h3 m hm m (by simp) rfl
      rcases List.mem_append.1 ho with ho | ho
      · exact stmtsGeoms_at ds m b h1 hm o ho
      · simp only [List.mem_singleton] at ho
        subst ho
        exact stmtsGeoms_self ds m b (not_name hm)

theorem stmtsGeoms_at (ds : Defs) (encl : String) (b : List Stmt) (hd : (names (stmtsOccs ds encl b)).Nodup)
    (he : encl ∉ names (stmtsOccs ds encl b)) (o : Occ) (ho : o ∈ stmtsOccs ds encl b) :
    (stmtsGeoms encl b).filter (fun e => e.1 = o.name) = (directGeoms o.body).map fun g => (o.name, g) := by
  match b with
  | [] => simp [stmtsOccs] at ho
  | s :: b =>
      simp only [stmtsOccs, names, List.map_append] at hd he ho
      rw [List.nodup_append] at hd
      obtain ⟨h1, h2, h3⟩ := hd
      rw [List.mem_append, not_or] at he
      simp only [stmtsGeoms, List.filter_append]
      rcases List.mem_append.1 ho with ho | ho
      · have hne : o.name ≠ encl := not_name he.1 o ho
        rw [stmtGeoms_at ds encl s h1 he.1 o ho, stmtsGeoms_other ds encl o.name b hne, List.append_nil]
        intro o' ho' e
        exact h3 o.name (List.mem_map.2 ⟨o, ho, rfl⟩) o'.name (List.mem_map.2 ⟨o', ho', rfl⟩) e.symm
      · have hne : o.name ≠ encl := not_name he.2 o ho
        rw [stmtsGeoms_at ds encl b h2 he.2 o ho, stmtGeoms_other ds encl o.name s hne, List.nil_append]
        intro o' ho' e
        exact h3 o'.name (List.mem_map.2 ⟨o', ho', rfl⟩) o.name (List.mem_map.2 ⟨o, ho, rfl⟩) e
end

theorem allGeoms_other (ts : List Thing) : ∀ (ds : Defs) (n : String), (∀ o ∈ occs ds ts, o.name ≠ n) →
    (allGeoms ds ts).filter (fun e => e.2.1 = n) = [] := by
  induction ts with
  | nil => intros; rfl
  | cons t ts ih =>
      intro ds n h
      cases t with
      | cls m b => exact ih _ n h
      | frame m b =>
          simp only [occs, List.mem_append, List.mem_singleton] at h
          simp only [allGeoms, List.filter_append, List.filter_map]
          rw [ih ds n fun o ho => h o (.inr ho)]
          have := stmtsGeoms_other ds m n b (fun e => h ⟨ds, none, m, b⟩ (.inl (.inr rfl)) e.symm)
            fun o ho => h o (.inl (.inl ho))
          simp only [Function.comp_def, this]
          rfl

mutual
theorem occ_defs_stmt (ds : Defs) (encl : String) (s : Stmt) (o : Occ) (h : o ∈ s.occs ds encl) : o.defs = ds := by
  match s with
  | .prop _ _ => simp [Stmt.occs] at h
  | .geom b => simp [Stmt.occs] at h
  | .frame m b =>
      simp only [Stmt.occs, List.mem_append, List.mem_singleton] at h
      rcases h with h | rfl
      · exact occ_defs_stmts ds m b o h
      · rfl

theorem occ_defs_stmts (ds : Defs) (encl : String) (b : List Stmt) (o : Occ) (h : o ∈ stmtsOccs ds encl b) :
    o.defs = ds := by
  match b with
  | [] => simp [stmtsOccs] at h
  | s :: b =>
      simp only [stmtsOccs, List.mem_append] at h
      rcases h with h | h
      · exact occ_defs_stmt ds encl s o h
      · exact occ_defs_stmts ds encl b o h
end

theorem allGeoms_at (ts : List Thing) : ∀ (ds : Defs), (names (occs ds ts)).Nodup → ∀ o ∈ occs ds ts,
    (allGeoms ds ts).filter (fun e => e.2.1 = o.name) = (directGeoms o.body).map fun g => (o.defs, o.name, g) := by
  induction ts with
  | nil => intro ds _ o ho; simp [occs] at ho
  | cons t ts ih =>
      intro ds hd o ho
      cases t with
      | cls m b => exact ih _ hd o ho
      | frame m b =>
          simp only [occs, names, List.map_append, List.map_cons, List.map_nil] at hd
          rw [List.nodup_append, List.nodup_append] at hd
          obtain ⟨⟨h1, -, h3⟩, h4, h5⟩ := hd
          have hm : m ∉ names (stmtsOccs ds m b) := fun hm => h3 m hm m (by simp) rfl
          simp only [occs] at ho
          simp only [allGeoms, List.filter_append, List.filter_map]
          have hone : o ∈ stmtsOccs ds m b ++ [⟨ds, none, m, b⟩] →
              (stmtsGeoms m b).filter (fun e => e.1 = o.name) = (directGeoms o.body).map (fun g => (o.name, g)) ∧
              o.defs = ds := by
            intro ho
            rcases List.mem_append.1 ho with ho | ho
            · exact ⟨stmtsGeoms_at ds m b h1 hm o ho, occ_defs_stmts ds m b o ho⟩
            · simp only [List.mem_singleton] at ho
              subst ho
              exact ⟨stmtsGeoms_self ds m b (not_name hm), rfl⟩
          have hin : ∀ o ∈ stmtsOccs ds m b ++ [⟨ds, none, m, b⟩], o.name ∈
              List.map Occ.name (stmtsOccs ds m b) ++ [m] := by
            intro o ho
            rcases List.mem_append.1 ho with ho | ho
            · exact List.mem_append.2 (.inl (List.mem_map.2 ⟨o, ho, rfl⟩))
            · simp only [List.mem_singleton] at ho
              subst ho; simp
          rcases List.mem_append.1 ho with ho | ho
          · obtain ⟨e1, e2⟩ := hone ho
            rw [allGeoms_other ts ds o.name, List.append_nil]
            · simp only [Function.comp_def, e1, List.map_map, e2]
            · intro o' ho' e
              exact h5 o.name (hin o ho) o'.name (List.mem_map.2 ⟨o', ho', rfl⟩) e.symm
          · rw [ih ds h4 o ho]
            have : (stmtsGeoms m b).filter (fun e => e.1 = o.name) = [] := by
              refine stmtsGeoms_other ds m o.name b ?_ ?_
              · intro e
                exact h5 m (by simp) o.name (List.mem_map.2 ⟨o, ho, rfl⟩) e.symm
              · intro o' ho' e
                exact h5 o'.name (hin o' (by simp [ho'])) o.name (List.mem_map.2 ⟨o, ho, rfl⟩) e
            simp only [Function.comp_def, this]
            rfl

end Verif.CurlyScene
