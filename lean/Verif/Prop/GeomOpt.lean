import Verif.Model.GeomOpt

/-!
# Options and shapes of geometry are those that were given (C105)

The claims are about histories, the last call first: what a client reads is what the calls of the history set,
found by going back through it.
-/

namespace Verif.GeomOpt

variable {V : Type}

/-- The named options with a number (include/amino/rx/scene_geom.h:80-185). -/
inductive Field
  | red | green | blue | alpha | specRed | specGreen | specBlue | scale
  deriving DecidableEq

/-- The flags. -/
inductive Flag
  | noShadow | visual | collision
  deriving DecidableEq

/-- What a getter of an option object returns. -/
def Field.get : Field → Opt V → V
  | .red => getColorRed | .green => getColorGreen | .blue => getColorBlue | .alpha => getAlpha
  | .specRed => getSpecularRed | .specGreen => getSpecularGreen | .specBlue => getSpecularBlue
  | .scale => getScale

@[inherit_doc Field.get] def Flag.get : Flag → Opt V → Int
  | .noShadow => getNoShadow | .visual => getVisual | .collision => getCollision

/-- The number that a call sets by name: scene_geom.h:135-138 `set_color3(red, blue, green)`, 170-173
`set_specular3(red, green, blue)`. -/
def Call.sets (o : Nat) (f : Field) : Call V → Option V
  | .setColor o' r b g => if o' = o then
      match f with | .red => some r | .blue => some b | .green => some g | _ => none
    else none
  | .setSpecular o' r g b => if o' = o then
      match f with | .specRed => some r | .specGreen => some g | .specBlue => some b | _ => none
    else none
  | .setAlpha o' a => if o' = o ∧ f = .alpha then some a else none
  | .setScale o' a => if o' = o ∧ f = .scale then some a else none
  | _ => none

/-- The flag that a call sets. -/
def Call.setsFlag (o : Nat) (f : Flag) : Call V → Option Int
  | .setNoShadow o' i => if o' = o ∧ f = .noShadow then some i else none
  | .setVisual o' i => if o' = o ∧ f = .visual then some i else none
  | .setCollision o' i => if o' = o ∧ f = .collision then some i else none
  | _ => none

/-- The default of an option: gray, opaque, not scaled, without specular reflection. -/
def Field.default (k : Consts V) : Field → V
  | .red => k.half | .green => k.half | .blue => k.half | .alpha => k.one
  | .specRed => k.zero | .specGreen => k.zero | .specBlue => k.zero | .scale => k.one

/-- The default of a flag: visual, collision, with shadow. -/
def Flag.default : Flag → Int
  | .noShadow => 0 | .visual => 1 | .collision => 1

/-- The number set last, or the default. -/
def last (k : Consts V) (h : List (Call V)) (o : Nat) (f : Field) : V :=
  (h.findSome? (Call.sets o f)).getD (f.default k)

/-- Whether a flag was set last, or is by default. -/
def lastFlag (h : List (Call V)) (o : Nat) (f : Flag) : Prop :=
  (h.findSome? (Call.setsFlag o f)).getD f.default ≠ 0

/-- The call that made object `i`. -/
def nth (h : List (Call V)) (i : Nat) : Option (Call V) := h.reverse[i]?

/-- The options exist: they were made and not destroyed. -/
def Alive (h : List (Call V)) (o : Nat) : Prop := nth h o = some .create ∧ Call.destroy o ∉ h

/-- The options that a call uses to make geometry. -/
def Call.makes : Call V → Option Nat
  | .box o _ _ _ => some o | .sphere o _ => some o | .cylinder o _ _ => some o | .cone o _ _ _ => some o
  | .grid o _ _ _ _ _ => some o | .torus o _ _ _ => some o | .mesh o _ => some o | .modify _ o => some o
  | _ => none

/-- The shape that a call gives. -/
def Call.shape : Call V → Option (Shape V)
  | .box _ x y z => some (.box x y z)
  | .sphere _ r => some (.sphere r)
  | .cylinder _ h r => some (.cylinder h r)
  | .cone _ h s e => some (.cone h s e)
  | .grid _ d0 d1 e0 e1 w => some (.grid d0 d1 e0 e1 w)
  | .torus _ a r s => some (.torus a r s)
  | .mesh _ m => some (.mesh m)
  | _ => none

/-- The shape of the geometry made by call `g`: the one given, or that of the geometry whose options it
changes. -/
inductive HasShape (h : List (Call V)) : Nat → Shape V → Prop
  | given {g c s} : nth h g = some c → c.shape = some s → HasShape h g s
  | modified {g g' o s} : nth h g = some (.modify g' o) → HasShape h g' s → HasShape h g s

/-- The rules for a call after a history: options that it uses exist, and the geometry whose options it
changes was made. -/
def Call.Allowed (h : List (Call V)) : Call V → Prop
  | .create => True
  | .destroy o => Alive h o
  | .setNoShadow o _ => Alive h o
  | .setVisual o _ => Alive h o
  | .setCollision o _ => Alive h o
  | .setColor o _ _ _ => Alive h o
  | .setSpecular o _ _ _ => Alive h o
  | .setAlpha o _ => Alive h o
  | .setScale o _ => Alive h o
  | .box o _ _ _ => Alive h o
  | .sphere o _ => Alive h o
  | .cylinder o _ _ => Alive h o
  | .cone o _ _ _ => Alive h o
  | .grid o _ _ _ _ _ => Alive h o
  | .torus o _ _ _ => Alive h o
  | .mesh o _ => Alive h o
  | .modify g o => Alive h o ∧ ∃ c o', nth h g = some c ∧ c.makes = some o'

/-- The rules for a history. -/
def Valid : List (Call V) → Prop
  | [] => True
  | c :: h => c.Allowed h ∧ Valid h

/-- The options read as set, but for the two components of the specular reflection that are exchanged. -/
def Reads (k : Consts V) (h : List (Call V)) (o : Nat) (p : Opt V) : Prop :=
  (∀ f, f ≠ .specGreen → f ≠ .specBlue → f.get p = last k h o f) ∧
  Field.specBlue.get p = last k h o .specGreen ∧ Field.specGreen.get p = last k h o .specBlue ∧
  ∀ f, (f.get p = 1 ∨ f.get p = 0) ∧ (f.get p = 1 ↔ lastFlag h o f)

/-! ## Histories -/

theorem nth_lt {h : List (Call V)} {i : Nat} {c : Call V} (e : nth h i = some c) : i < h.length := by
  have := (List.getElem?_eq_some_iff.1 e).1
  simpa using this

theorem nth_cons_lt {h : List (Call V)} {i : Nat} (c : Call V) (hi : i < h.length) :
    nth (c :: h) i = nth h i := by
  simp [nth, List.getElem?_append_left, hi]

theorem nth_cons_self (h : List (Call V)) (c : Call V) : nth (c :: h) h.length = some c := by
  simp [nth]

theorem nth_cons_of {h : List (Call V)} {i : Nat} {c c' : Call V} (e : nth h i = some c) :
    nth (c' :: h) i = some c := by rw [nth_cons_lt c' (nth_lt e), e]

theorem hasShape_cons {h : List (Call V)} {g : Nat} {s : Shape V} (c : Call V) (e : HasShape h g s) :
    HasShape (c :: h) g s := by
  induction e with
  | given h1 h2 => exact .given (nth_cons_of h1) h2
  | modified h1 _ ih => exact .modified (nth_cons_of h1) ih

/-- Options that a call or an earlier history names exist. -/
def Call.on : Call V → Option Nat
  | .setColor o _ _ _ => some o | .setSpecular o _ _ _ => some o | .setAlpha o _ => some o
  | .setScale o _ => some o | .setNoShadow o _ => some o | .setVisual o _ => some o
  | .setCollision o _ => some o | .destroy o => some o
  | _ => none

theorem sets_on {c : Call V} {o : Nat} {f : Field} {v : V} (h : c.sets o f = some v) :
    c.on = some o := by
  cases c <;> simp_all [Call.sets, Call.on]

theorem setsFlag_on {c : Call V} {o : Nat} {f : Flag} {v : Int} (h : c.setsFlag o f = some v) :
    c.on = some o := by
  cases c <;> simp_all [Call.setsFlag, Call.on]

theorem last_cons_of {k : Consts V} {h : List (Call V)} {c : Call V} {o : Nat} {f : Field}
    (hc : c.on ≠ some o) : last k (c :: h) o f = last k h o f := by
  have : c.sets o f = none := by
    cases e : c.sets o f with
    | none => rfl
    | some v => exact absurd (sets_on e) hc
  simp [last, this]

theorem lastFlag_cons_of {h : List (Call V)} {c : Call V} {o : Nat} {f : Flag}
    (hc : c.on ≠ some o) : lastFlag (c :: h) o f = lastFlag h o f := by
  have : c.setsFlag o f = none := by
    cases e : c.setsFlag o f with
    | none => rfl
    | some v => exact absurd (setsFlag_on e) hc
  simp [lastFlag, this]

theorem reads_cons_of {k : Consts V} {h : List (Call V)} {c : Call V} {o : Nat} {p : Opt V}
    (hc : c.on ≠ some o) (hr : Reads k h o p) : Reads k (c :: h) o p := by
  obtain ⟨h1, h2, h3, h4⟩ := hr
  refine ⟨fun f a b => ?_, ?_, ?_, fun f => ?_⟩
  · rw [last_cons_of hc]; exact h1 f a b
  · rw [last_cons_of hc]; exact h2
  · rw [last_cons_of hc]; exact h3
  · rw [lastFlag_cons_of hc]; exact h4 f

/-- The invariant. -/
structure Inv (k : Consts V) (h : List (Call V)) (s : St V) : Prop where
  n : s.n = h.length
  alive : ∀ o, Alive h o ↔ (s.opts o).isSome
  reads : ∀ o p, s.opts o = some p → Reads k h o p
  /-- no call names options that were not made before -/
  old : ∀ o, h.length ≤ o → ∀ c ∈ h, c.on ≠ some o
  made : ∀ g, (s.geoms g).isSome ↔ ∃ c o, nth h g = some c ∧ c.makes = some o
  geom : ∀ g G, s.geoms g = some G → HasShape h g G.shape ∧
    ∃ h1 c h2 o, h = h1 ++ c :: h2 ∧ g = h2.length ∧ c.makes = some o ∧ Alive h2 o ∧ Reads k h2 o G.opt

theorem alive_lt {h : List (Call V)} {o : Nat} (ha : Alive h o) : o < h.length := nth_lt ha.1

theorem last_fresh {k : Consts V} {h : List (Call V)} {o : Nat} (ho : ∀ c ∈ h, c.on ≠ some o) (f : Field) :
    last k h o f = f.default k := by
  induction h with
  | nil => rfl
  | cons c h ih =>
    rw [last_cons_of (ho c (by simp))]
    exact ih fun c' hc' => ho c' (by simp [hc'])

theorem lastFlag_fresh {h : List (Call V)} {o : Nat} (ho : ∀ c ∈ h, c.on ≠ some o) (f : Flag) :
    lastFlag h o f = (f.default ≠ 0) := by
  induction h with
  | nil => rfl
  | cons c h ih =>
    rw [lastFlag_cons_of (ho c (by simp))]
    exact ih fun c' hc' => ho c' (by simp [hc'])

theorem alive_cons {h : List (Call V)} {c : Call V} {o : Nat} (ho : o < h.length) :
    Alive (c :: h) o ↔ Alive h o ∧ c ≠ .destroy o := by
  unfold Alive
  rw [nth_cons_lt c ho, List.mem_cons, not_or, and_assoc]
  constructor
  · rintro ⟨a, b, d⟩; exact ⟨a, d, fun e => b e.symm⟩
  · rintro ⟨a, d, b⟩; exact ⟨a, fun e => b e.symm, d⟩

theorem old_cons {h : List (Call V)} {c : Call V} (ho : ∀ o, h.length ≤ o → ∀ c ∈ h, c.on ≠ some o)
    (hc : ∀ o, c.on = some o → o < h.length) :
    ∀ o, (c :: h).length ≤ o → ∀ c' ∈ c :: h, c'.on ≠ some o := by
  intro o hl c' hc' e
  simp only [List.length_cons] at hl
  rcases List.mem_cons.1 hc' with rfl | hc'
  · have := hc o e; omega
  · exact ho o (by omega) c' hc' e

theorem geom_cons {k : Consts V} {h : List (Call V)} {s : St V} (hi : Inv k h s) (c : Call V) {g : Nat}
    {G : Geom V} (e : s.geoms g = some G) : HasShape (c :: h) g G.shape ∧
    ∃ h1 c' h2 o, c :: h = h1 ++ c' :: h2 ∧ g = h2.length ∧ c'.makes = some o ∧ Alive h2 o ∧
      Reads k h2 o G.opt := by
  obtain ⟨a, h1, c', h2, o, e1, r⟩ := hi.geom g G e
  exact ⟨hasShape_cons c a, c :: h1, c', h2, o, by rw [e1]; rfl, r⟩

theorem made_lt {k : Consts V} {h : List (Call V)} {s : St V} (hi : Inv k h s) {g : Nat}
    (e : (s.geoms g).isSome) : g < h.length := by
  obtain ⟨c, o, e1, -⟩ := (hi.made g).1 e
  exact nth_lt e1

theorem made_cons {k : Consts V} {h : List (Call V)} {s : St V} (hi : Inv k h s) {c : Call V}
    (hc : c.makes = none) (g : Nat) :
    (s.geoms g).isSome ↔ ∃ c' o, nth (c :: h) g = some c' ∧ c'.makes = some o := by
  rw [hi.made g]
  constructor
  · rintro ⟨c', o, e, m⟩; exact ⟨c', o, nth_cons_of e, m⟩
  · rintro ⟨c', o, e, m⟩
    have hl := nth_lt e
    rcases Nat.lt_or_ge g h.length with hg | hg
    · exact ⟨c', o, by rw [← nth_cons_lt c hg]; exact e, m⟩
    · have : g = h.length := by simp at hl; omega
      subst this
      rw [nth_cons_self] at e
      cases e
      rw [hc] at m; cases m

/-- Calls that change options. -/
theorem inv_change {k : Consts V} {h : List (Call V)} {s : St V} (hi : Inv k h s) {c : Call V} {o : Nat}
    {f : Opt V → Opt V} (ha : Alive h o) (hon : c.on = some o) (hm : c.makes = none) (hcr : c ≠ .create)
    (hd : ∀ o', c ≠ .destroy o')
    (hr : ∀ p, Reads k h o p → Reads k (c :: h) o (f p)) :
    ∃ s', s.change o f = some s' ∧ Inv k (c :: h) s' := by
  obtain ⟨p, hp⟩ := Option.isSome_iff_exists.1 ((hi.alive o).1 ha)
  refine ⟨{ s with n := s.n + 1, opts := upd s.opts o (some (f p)) }, by simp [St.change, hp],
    by simp [hi.n], fun o' => ?_, fun o' p' e => ?_, ?_, ?_, fun g G e => geom_cons hi c e⟩
  · rcases Nat.lt_or_ge o' h.length with hl | hl
    · rw [alive_cons hl, hi.alive]
      simp only [upd]
      split
      · rename_i e; subst e; simp [hp, hd]
      · simp [hd]
    · constructor
      · intro a
        have h1 := alive_lt a
        have : o' = h.length := by simp at h1; omega
        subst this
        have h2 := a.1
        rw [nth_cons_self] at h2
        cases h2; exact absurd rfl hcr
      · intro a
        have hlo := alive_lt ha
        simp only [upd] at a
        rw [if_neg (by omega)] at a
        have := alive_lt ((hi.alive o').2 a)
        omega
  · simp only [upd] at e
    split at e
    · rename_i e'; subst e'; cases e; exact hr p (hi.reads _ p hp)
    · rename_i e'
      exact reads_cons_of (by rw [hon]; intro e2; cases e2; exact e' rfl) (hi.reads o' p' e)
  · exact old_cons hi.old fun o' e => by rw [hon] at e; cases e; exact alive_lt ha
  · exact made_cons hi hm

/-- Calls that make geometry. -/
theorem inv_make {k : Consts V} {h : List (Call V)} {s : St V} (hi : Inv k h s) {c : Call V} {o : Nat}
    {f : Opt V → Geom V} (ha : Alive h o) (hon : c.on = none) (hm : c.makes = some o)
    (hf : ∀ p, (f p).opt = p) (hs : ∀ p, HasShape (c :: h) h.length (f p).shape) :
    ∃ s', s.make o f = some s' ∧ Inv k (c :: h) s' := by
  obtain ⟨p, hp⟩ := Option.isSome_iff_exists.1 ((hi.alive o).1 ha)
  have hcr : c ≠ .create := by rintro rfl; cases hm
  have hd : ∀ o', c ≠ .destroy o' := by rintro o' rfl; cases hm
  refine ⟨{ s with n := s.n + 1, geoms := upd s.geoms s.n (some (f p)) }, by simp [St.make, hp],
    by simp [hi.n], fun o' => ?_, fun o' p' e => ?_, ?_, fun g => ?_, fun g G e => ?_⟩
  · rw [show (({ s with n := s.n + 1, geoms := upd s.geoms s.n (some (f p)) } : St V)).opts o' = s.opts o'
      from rfl, ← hi.alive]
    rcases Nat.lt_or_ge o' h.length with hl | hl
    · rw [alive_cons hl]; simp [hd]
    · constructor
      · intro a
        have h1 := alive_lt a
        have : o' = h.length := by simp at h1; omega
        subst this
        have h2 := a.1
        rw [nth_cons_self] at h2
        cases h2; exact absurd rfl hcr
      · intro a; have := alive_lt a; omega
  · exact reads_cons_of (by rw [hon]; exact fun e => by cases e) (hi.reads o' p' e)
  · exact old_cons hi.old fun o' e => by rw [hon] at e; cases e
  · simp only [upd, hi.n]
    split
    · rename_i e; subst e
      simp only [Option.isSome_some, true_iff]
      exact ⟨c, o, nth_cons_self h c, hm⟩
    · rename_i e
      rw [hi.made g]
      constructor
      · rintro ⟨c', o', e', m⟩; exact ⟨c', o', nth_cons_of e', m⟩
      · rintro ⟨c', o', e', m⟩
        have hl := nth_lt e'
        have hg : g < h.length := by simp at hl; omega
        exact ⟨c', o', by rw [← nth_cons_lt c hg]; exact e', m⟩
  · simp only [upd, hi.n] at e
    split at e
    · rename_i e'; subst e'; cases e
      exact ⟨hs p, [], c, h, o, rfl, rfl, hm, ha, by rw [hf]; exact hi.reads o p hp⟩
    · exact geom_cons hi c e

theorem last_cons {k : Consts V} {h : List (Call V)} {c : Call V} {o : Nat} {f : Field} :
    last k (c :: h) o f = (c.sets o f).getD (last k h o f) := by
  simp only [last, List.findSome?_cons]
  cases c.sets o f <;> rfl

theorem lastFlag_cons {h : List (Call V)} {c : Call V} {o : Nat} {f : Flag} :
    lastFlag (c :: h) o f ↔ match c.setsFlag o f with | some i => i ≠ 0 | none => lastFlag h o f := by
  simp only [lastFlag, List.findSome?_cons]
  cases c.setsFlag o f <;> rfl

theorem modify_shape (src : Geom V) (p : Opt V) :
    (modifyOpt src p).shape = src.shape ∧ (modifyOpt src p).opt = p := by
  obtain ⟨q, s⟩ := src
  cases s <;> exact ⟨rfl, rfl⟩

theorem inv_run (k : Consts V) (h : List (Call V)) (hv : Valid h) : ∃ s, run k h = some s ∧ Inv k h s := by
  induction h with
  | nil =>
    refine ⟨.init, rfl, rfl, fun o => ?_, ?_, ?_, fun g => ?_, ?_⟩
    · simp [Alive, nth, St.init]
    · intro o p e; cases e
    · intro o _ c hc; simp at hc
    · simp [nth, St.init]
    · intro g G e; cases e
  | cons c h ih =>
    obtain ⟨s, hs, hi⟩ := ih hv.2
    have ha := hv.1
    have key : (∃ s', s.step k c = some s' ∧ Inv k (c :: h) s') →
        ∃ s', run k (c :: h) = some s' ∧ Inv k (c :: h) s' := by
      rintro ⟨s', e, i⟩; exact ⟨s', by simp [run, hs, e], i⟩
    apply key
    cases c with
    | create =>
      refine ⟨_, rfl, by simp [hi.n], fun o => ?_, fun o p e => ?_, ?_, ?_, fun g G e => geom_cons hi _ e⟩
      · simp only [upd, hi.n]
        split
        · rename_i e; subst e
          simp only [Option.isSome_some, iff_true]
          refine ⟨nth_cons_self _ _, fun hc => ?_⟩
          rcases List.mem_cons.1 hc with hc | hc
          · cases hc
          · exact hi.old _ (Nat.le_refl _) _ hc rfl
        · rename_i e
          rw [← hi.alive]
          rcases Nat.lt_or_ge o h.length with hl | hl
          · rw [alive_cons hl]; simp
          · constructor
            · intro a; have := alive_lt a; simp at this; omega
            · intro a; have := alive_lt a; omega
      · simp only [upd, hi.n] at e
        split at e
        · rename_i e'; subst e'; cases e
          apply reads_cons_of (by simp [Call.on])
          have ho := hi.old h.length (Nat.le_refl _)
          refine ⟨fun f _ _ => ?_, ?_, ?_, fun f => ?_⟩
          · rw [last_fresh ho]; cases f <;> rfl
          · rw [last_fresh ho]; rfl
          · rw [last_fresh ho]; rfl
          · rw [lastFlag_fresh ho]
            cases f <;> simp [Flag.get, getNoShadow, getVisual, getCollision, create, setScale, setCollision,
              setVisual, setColor3, setAlpha, boolOf, Flag.default]
        · exact reads_cons_of (by simp [Call.on]) (hi.reads o p e)
      · exact old_cons hi.old fun o e => by simp [Call.on] at e
      · exact made_cons hi rfl
    | destroy o =>
      obtain ⟨p, hp⟩ := Option.isSome_iff_exists.1 ((hi.alive o).1 ha)
      have hlo : o < h.length := alive_lt ha
      refine ⟨{ s with n := s.n + 1, opts := upd s.opts o none }, by simp [St.step, hp], by simp [hi.n],
        fun o' => ?_, fun o' p' e => ?_, ?_, ?_, fun g G e => geom_cons hi _ e⟩
      · simp only [upd]
        split
        · rename_i e; subst e
          rw [alive_cons hlo]; simp
        · rename_i e
          rw [← hi.alive]
          rcases Nat.lt_or_ge o' h.length with hl | hl
          · rw [alive_cons hl]
            simp only [and_iff_left_iff_imp]
            intro _ e'; cases e'; exact e rfl
          · constructor
            · intro a
              have h1 := alive_lt a
              have : o' = h.length := by simp at h1; omega
              subst this
              have h2 := a.1
              rw [nth_cons_self] at h2
              cases h2
            · intro a; have := alive_lt a; omega
      · simp only [upd] at e
        split at e
        · cases e
        · rename_i e'
          refine reads_cons_of ?_ (hi.reads o' p' e)
          simp only [Call.on]; intro e2; cases e2; exact e' rfl
      · exact old_cons hi.old fun o' e => by simp only [Call.on] at e; cases e; exact hlo
      · exact made_cons hi rfl
    | setNoShadow o i =>
      refine inv_change hi ha rfl rfl (by simp) (by simp) ?_
      rintro p ⟨h1, h2, h3, h4⟩
      refine ⟨fun f a b => ?_, ?_, ?_, fun f => ?_⟩
      · rw [last_cons]; exact (show f.get _ = f.get p by cases f <;> rfl).trans (h1 f a b)
      · rw [last_cons]; exact h2
      · rw [last_cons]; exact h3
      · rw [lastFlag_cons]
        have := h4 f
        by_cases h0 : i = 0 <;> cases f <;> first
          | (simp [Flag.get, getNoShadow, getVisual, getCollision, setNoShadow, boolOf, Call.setsFlag, h0]; done)
          | (rw [show Call.setsFlag o _ (Call.setNoShadow o i : Call V) = none by simp [Call.setsFlag]]; exact this)
    | setVisual o i =>
      refine inv_change hi ha rfl rfl (by simp) (by simp) ?_
      rintro p ⟨h1, h2, h3, h4⟩
      refine ⟨fun f a b => ?_, ?_, ?_, fun f => ?_⟩
      · rw [last_cons]; exact (show f.get _ = f.get p by cases f <;> rfl).trans (h1 f a b)
      · rw [last_cons]; exact h2
      · rw [last_cons]; exact h3
      · rw [lastFlag_cons]
        have := h4 f
        by_cases h0 : i = 0 <;> cases f <;> first
          | (simp [Flag.get, getNoShadow, getVisual, getCollision, setVisual, boolOf, Call.setsFlag, h0]; done)
          | (rw [show Call.setsFlag o _ (Call.setVisual o i : Call V) = none by simp [Call.setsFlag]]; exact this)
    | setCollision o i =>
      refine inv_change hi ha rfl rfl (by simp) (by simp) ?_
      rintro p ⟨h1, h2, h3, h4⟩
      refine ⟨fun f a b => ?_, ?_, ?_, fun f => ?_⟩
      · rw [last_cons]; exact (show f.get _ = f.get p by cases f <;> rfl).trans (h1 f a b)
      · rw [last_cons]; exact h2
      · rw [last_cons]; exact h3
      · rw [lastFlag_cons]
        have := h4 f
        by_cases h0 : i = 0 <;> cases f <;> first
          | (simp [Flag.get, getNoShadow, getVisual, getCollision, setCollision, boolOf, Call.setsFlag, h0]; done)
          | (rw [show Call.setsFlag o _ (Call.setCollision o i : Call V) = none by simp [Call.setsFlag]]; exact this)
    | setColor o x y z =>
      refine inv_change hi ha rfl rfl (by simp) (by simp) ?_
      rintro p ⟨h1, h2, h3, h4⟩
      refine ⟨fun f a b => ?_, ?_, ?_, fun f => ?_⟩
      · rw [last_cons, ← h1 f a b]; cases f <;> simp [Call.sets, Field.get] <;> rfl
      · rw [last_cons, ← h2]; simp [Call.sets]; rfl
      · rw [last_cons, ← h3]; simp [Call.sets]; rfl
      · rw [lastFlag_cons]; have := h4 f; cases f <;> exact this
    | setSpecular o x y z =>
      refine inv_change hi ha rfl rfl (by simp) (by simp) ?_
      rintro p ⟨h1, h2, h3, h4⟩
      refine ⟨fun f a b => ?_, ?_, ?_, fun f => ?_⟩
      · rw [last_cons, ← h1 f a b]; cases f <;> simp_all [Call.sets, Field.get] <;> rfl
      · rw [last_cons, ← h2]; simp [Call.sets]; rfl
      · rw [last_cons, ← h3]; simp [Call.sets]; rfl
      · rw [lastFlag_cons]; have := h4 f; cases f <;> exact this
    | setAlpha o x =>
      refine inv_change hi ha rfl rfl (by simp) (by simp) ?_
      rintro p ⟨h1, h2, h3, h4⟩
      refine ⟨fun f a b => ?_, ?_, ?_, fun f => ?_⟩
      · rw [last_cons, ← h1 f a b]; cases f <;> simp [Call.sets, Field.get] <;> rfl
      · rw [last_cons, ← h2]; simp [Call.sets]; rfl
      · rw [last_cons, ← h3]; simp [Call.sets]; rfl
      · rw [lastFlag_cons]; have := h4 f; cases f <;> exact this
    | setScale o x =>
      refine inv_change hi ha rfl rfl (by simp) (by simp) ?_
      rintro p ⟨h1, h2, h3, h4⟩
      refine ⟨fun f a b => ?_, ?_, ?_, fun f => ?_⟩
      · rw [last_cons, ← h1 f a b]; cases f <;> simp [Call.sets, Field.get] <;> rfl
      · rw [last_cons, ← h2]; simp [Call.sets]; rfl
      · rw [last_cons, ← h3]; simp [Call.sets]; rfl
      · rw [lastFlag_cons]; have := h4 f; cases f <;> exact this
    | box o x y z =>
      exact inv_make hi ha rfl rfl (fun _ => rfl) fun _ => .given (nth_cons_self _ _) rfl
    | sphere o r =>
      exact inv_make hi ha rfl rfl (fun _ => rfl) fun _ => .given (nth_cons_self _ _) rfl
    | cylinder o a r =>
      exact inv_make hi ha rfl rfl (fun _ => rfl) fun _ => .given (nth_cons_self _ _) rfl
    | cone o a b d =>
      exact inv_make hi ha rfl rfl (fun _ => rfl) fun _ => .given (nth_cons_self _ _) rfl
    | grid o d0 d1 e0 e1 w =>
      exact inv_make hi ha rfl rfl (fun _ => rfl) fun _ => .given (nth_cons_self _ _) rfl
    | torus o a b d =>
      exact inv_make hi ha rfl rfl (fun _ => rfl) fun _ => .given (nth_cons_self _ _) rfl
    | mesh o m =>
      exact inv_make hi ha rfl rfl (fun _ => rfl) fun _ => .given (nth_cons_self _ _) rfl
    | modify g o =>
      obtain ⟨src, hg⟩ := Option.isSome_iff_exists.1 ((hi.made g).2 ha.2)
      simp only [St.step, hg]
      refine inv_make hi ha.1 rfl rfl (fun p => (modify_shape src p).2) fun p => ?_
      rw [(modify_shape src p).1]
      exact .modified (nth_cons_self _ _) (hasShape_cons _ (hi.geom g src hg).1)

/-! ## C105 -/

/-- **C105 (options).** After any history that follows the rules no call was undefined, the options that exist
are those that were made and not destroyed, and every getter but those of two components of the specular
reflection returns what was set last, or the default; a flag reads as one if it was set to anything but
zero. -/
theorem C105_options_partial (k : Consts V) (h : List (Call V)) (hv : Valid h) :
    ∃ s, run k h = some s ∧ ∀ o, (Alive h o ↔ (s.opts o).isSome) ∧ ∀ p, s.opts o = some p →
      (∀ f : Field, f ≠ .specGreen → f ≠ .specBlue → f.get p = last k h o f) ∧
      ∀ f : Flag, (f.get p = 1 ∨ f.get p = 0) ∧ (f.get p = 1 ↔ lastFlag h o f) := by
  obtain ⟨s, hs, hi⟩ := inv_run k h hv
  exact ⟨s, hs, fun o => ⟨hi.alive o, fun p hp => ⟨(hi.reads o p hp).1, (hi.reads o p hp).2.2.2⟩⟩⟩

/-- **C105 (geometry).** Geometry exists for every call that makes it; it has the shape that was given, or that
of the geometry whose options are changed, and its options are those of the option object at the time of the
call, whatever is done with that afterwards. -/
theorem C105_geometry_partial (k : Consts V) (h : List (Call V)) (hv : Valid h) :
    ∃ s, run k h = some s ∧ ∀ g, ((s.geoms g).isSome ↔ ∃ c o, nth h g = some c ∧ c.makes = some o) ∧
      ∀ G, s.geoms g = some G → HasShape h g G.shape ∧
        ∃ h1 c h2 o, h = h1 ++ c :: h2 ∧ g = h2.length ∧ c.makes = some o ∧ Alive h2 o ∧
          (∀ f : Field, f ≠ .specGreen → f ≠ .specBlue → f.get G.opt = last k h2 o f) ∧
          ∀ f : Flag, (f.get G.opt = 1 ∨ f.get G.opt = 0) ∧ (f.get G.opt = 1 ↔ lastFlag h2 o f) := by
  obtain ⟨s, hs, hi⟩ := inv_run k h hv
  refine ⟨s, hs, fun g => ⟨hi.made g, fun G hG => ?_⟩⟩
  obtain ⟨a, h1, c, h2, o, e1, e2, e3, e4, e5⟩ := hi.geom g G hG
  exact ⟨a, h1, c, h2, o, e1, e2, e3, e4, e5.1, e5.2.2.2⟩

/-- A geometry has one shape. -/
theorem C105_shape_unique (h : List (Call V)) (g : Nat) (s t : Shape V) (hs : HasShape h g s)
    (ht : HasShape h g t) : s = t := by
  induction hs with
  | given h1 h2 =>
    cases ht with
    | given h3 h4 => rw [h1] at h3; cases h3; rw [h2] at h4; cases h4; rfl
    | modified h3 _ => rw [h1] at h3; cases h3; cases h2
  | modified h1 _ ih =>
    cases ht with
    | given h3 h4 => rw [h1] at h3; cases h3; cases h4
    | modified h3 h4 => rw [h1] at h3; cases h3; exact ih h4

/-- **C105 fails** for the green and blue specular reflection: after any history the getters of the two
return what was set for the other one. -/
theorem C105_violates_specular (k : Consts V) (h : List (Call V)) (hv : Valid h) :
    ∃ s, run k h = some s ∧ ∀ o p, s.opts o = some p →
      getSpecularBlue p = last k h o .specGreen ∧ getSpecularGreen p = last k h o .specBlue := by
  obtain ⟨s, hs, hi⟩ := inv_run k h hv
  exact ⟨s, hs, fun o p hp => ⟨(hi.reads o p hp).2.1, (hi.reads o p hp).2.2.1⟩⟩

/-- Options are made, changed, used for a cone, changed again and destroyed; other options are given to a copy
of the cone. -/
def sample : List (Call Int) :=
  [.modify 3 6, .create, .destroy 0, .setAlpha 0 9, .cone 0 4 5 6, .setVisual 0 0, .setSpecular 0 1 2 3, .create]

example : Valid sample := by
  simp [sample, Valid, Call.Allowed, Alive, nth, Call.makes]

example : last ⟨0, 5, 10⟩ sample 0 .alpha = 9 ∧ last ⟨0, 5, 10⟩ sample 0 .specGreen = 2 ∧
    last ⟨0, 5, 10⟩ sample 0 .red = 5 ∧ ¬ lastFlag sample 0 .visual := by
  exact ⟨rfl, rfl, rfl, fun h => h rfl⟩

example : HasShape sample 7 (.cone 4 5 6) :=
  .modified (g' := 3) (o := 6) rfl (.given (c := .cone 0 4 5 6) rfl rfl)

end Verif.GeomOpt
