/-
C157: the colours of Wavefront materials in compiled meshes.
-/
import Verif.Model.MtlLisp
import Mathlib.Algebra.Order.Floor.Ring
import Mathlib.Tactic.Linarith
import Mathlib.Tactic.NormNum

namespace Verif.MtlLisp

open Verif.MtlScan

/-! ### Specification -/

/-- `m` is the definition of `name`: the last in the files, in the order in which they are read. -/
def IsDef (files : List (List Mat)) (name : String) (m : Mat) : Prop :=
  ∃ pre post, files.flatten = pre ++ m :: post ∧ m.name = name ∧ ∀ m' ∈ post, m'.name ≠ name

/-- `b` is the byte for the ratio `v`. -/
def IsByte (b : Int) (v : Rat) : Prop := 0 ≤ b ∧ b ≤ 255 ∧ |(b : Rat) - 255 * v| ≤ 1 / 2

/-- Channel `c` of a material: `Kd` and `d`, by default grey and opaque. -/
def channel (m : Option Mat) (c : Fin 4) : Rat :=
  match m with
  | none => if c = 3 then 1 else 1 / 2
  | some m => if h : c.1 < 3 then (if m.hasCol .diffuse then m.col .diffuse ⟨c.1, h⟩ else 1 / 2)
      else if m.hasNum .alpha then m.num .alpha else 1

/-- What the texture should be: four bytes for each material. -/
def Spec (files : List (List Mat)) (names : List String) (r : List Int) : Prop :=
  r.length = 4 * names.length ∧ ∀ (i : Nat) (name : String), names[i]? = some name → ∀ c : Fin 4,
    ∃ b, r[4 * i + c.1]? = some b ∧
      (∀ m, IsDef files name m → IsByte b (channel (some m) c)) ∧
      ((∀ m ∈ files.flatten, m.name ≠ name) → IsByte b (channel none c))

/-- All values given lie between 0 and 1. -/
def Ratios (files : List (List Mat)) : Prop :=
  ∀ m ∈ files.flatten, (∀ j, 0 ≤ m.col .diffuse j ∧ m.col .diffuse j ≤ 1) ∧
    0 ≤ m.num .alpha ∧ m.num .alpha ≤ 1

/-! ### Lemmas -/

theorem rnd_near (x : Rat) : |(rnd x : Rat) - x| ≤ 1 / 2 := by
  have h1 := Int.floor_le x
  have h2 := Int.lt_floor_add_one x
  unfold rnd
  split_ifs <;> rw [abs_le] <;> push_cast <;> constructor <;> linarith

theorem rnd_mono_bound (x : Rat) (h0 : 0 ≤ x) (h1 : x ≤ 255) : 0 ≤ rnd x ∧ rnd x ≤ 255 := by
  have h := abs_le.1 (rnd_near x)
  constructor
  · by_contra hc
    have : rnd x ≤ -1 := by omega
    have : (rnd x : Rat) ≤ -1 := by exact_mod_cast this
    linarith [h.1]
  · by_contra hc
    have : (256 : Int) ≤ rnd x := by omega
    have : (256 : Rat) ≤ rnd x := by exact_mod_cast this
    linarith [h.2]

theorem octet_spec (f : Rat) (h0 : 0 ≤ f) (h1 : f ≤ 1) : ∃ b, octet f = some b ∧ IsByte b f := by
  obtain ⟨a, b⟩ := rnd_mono_bound (255 * f) (by linarith) (by linarith)
  refine ⟨rnd (255 * f), ?_, a, b, rnd_near _⟩
  rw [octet, if_pos ⟨h1, h0⟩, min_eq_right b, max_eq_right a]

theorem foldl_cons (ms : List Mat) (r : List (String × Props)) :
    ms.foldl (fun r m => extract m :: r) r = (ms.map extract).reverse ++ r := by
  induction ms generalizing r with
  | nil => rfl
  | cons m ms ih => rw [List.foldl_cons, ih]; simp

theorem mtlExtract_eq (files : List (List Mat)) : mtlExtract files = (files.flatten.map extract).reverse := by
  have : ∀ (fs : List (List Mat)) (r : List (String × Props)),
      fs.foldl (fun r ms => ms.foldl (fun r m => extract m :: r) r) r = (fs.flatten.map extract).reverse ++ r := by
    intro fs
    induction fs with
    | nil => intro r; rfl
    | cons f fs ih => intro r; rw [List.foldl_cons, ih, foldl_cons]; simp
  have := this files []
  rw [List.append_nil] at this
  exact this

theorem assoc_append {β : Type} (a : String) (p : β) (l l' : List (String × β)) (h : ∀ q ∈ l, q.1 ≠ a) :
    assoc a (l ++ (a, p) :: l') = some (a, p) := by
  induction l with
  | nil => simp [assoc]
  | cons q l ih =>
      rw [List.cons_append, assoc, if_neg (h q (by simp))]
      exact ih fun q hq => h q (by simp [hq])

theorem texture_def (files : List (List Mat)) (name : String) (m : Mat) (h : IsDef files name m) :
    texture (mtlExtract files) name = (extract m).2 := by
  obtain ⟨pre, post, h1, rfl, h3⟩ := h
  have : mtlExtract files = (post.map extract).reverse ++ (m.name, (extract m).2) :: (pre.map extract).reverse := by
    rw [mtlExtract_eq, h1]; simp [extract]
  rw [texture, this, assoc_append]
  intro q hq
  simp only [List.mem_reverse, List.mem_map] at hq
  obtain ⟨m', hm', rfl⟩ := hq
  exact h3 m' hm'

theorem isDef_unique (files : List (List Mat)) (name : String) (m m' : Mat) (h : IsDef files name m)
    (h' : IsDef files name m') : m = m' := by
  obtain ⟨p, q, h1, h2, h3⟩ := h
  obtain ⟨p', q', h1', h2', h3'⟩ := h'
  rw [h1] at h1'
  rcases List.append_eq_append_iff.1 h1' with ⟨s, e1, e2⟩ | ⟨s, e1, e2⟩
  · cases s with
    | nil => simp at e2; exact e2.1
    | cons x s =>
        simp at e2
        exact absurd h2' (h3 m' (by rw [e2.2]; simp))
  · cases s with
    | nil => simp at e2; exact e2.1.symm
    | cons x s =>
        simp at e2
        exact absurd h2 (h3' m (by rw [e2.2]; simp))

theorem bytes_extract (m : Mat) (h : ∀ j, 0 ≤ m.col .diffuse j ∧ m.col .diffuse j ≤ 1)
    (h' : 0 ≤ m.num .alpha ∧ m.num .alpha ≤ 1) : ∃ r g b a, bytes (extract m).2 = some [r, g, b, a] ∧
      IsByte r (m.col .diffuse 0) ∧ IsByte g (m.col .diffuse 1) ∧ IsByte b (m.col .diffuse 2) ∧
      IsByte a (m.num .alpha) := by
  obtain ⟨r, hr, hr'⟩ := octet_spec _ (h 0).1 (h 0).2
  obtain ⟨g, hg, hg'⟩ := octet_spec _ (h 1).1 (h 1).2
  obtain ⟨b, hb, hb'⟩ := octet_spec _ (h 2).1 (h 2).2
  obtain ⟨a, ha, ha'⟩ := octet_spec _ h'.1 h'.2
  refine ⟨r, g, b, a, ?_, hr', hg', hb', ha'⟩
  simp [bytes, extract, whenPush, lispTrue, getDefault, assoc, hr, hg, hb, ha]

theorem rgbaFrom_spec (al : List (String × Props)) (names : List String)
    (h : ∀ n ∈ names, ∃ q : List Int, bytes (texture al n) = some q ∧ q.length = 4) :
    ∃ r, rgbaFrom al names = some r ∧ r.length = 4 * names.length ∧ ∀ (i : Nat) (n : String),
      names[i]? = some n → ∃ q : List Int, bytes (texture al n) = some q ∧ ∀ c < 4, r[4 * i + c]? = q[c]? := by
  induction names with
  | nil => exact ⟨[], rfl, rfl, by simp⟩
  | cons n ns ih =>
      obtain ⟨r, h1, h2, h3⟩ := ih fun n hn => h n (by simp [hn])
      obtain ⟨q, hq, hl⟩ := h n (by simp)
      refine ⟨q ++ r, by simp [rgbaFrom, hq, h1], by simp [hl, h2]; omega, fun i n' hi => ?_⟩
      cases i with
      | zero =>
          simp only [List.getElem?_cons_zero, Option.some.injEq] at hi
          subst hi
          exact ⟨q, hq, fun c hc => by rw [List.getElem?_append_left (by omega)]; simp⟩
      | succ i =>
          obtain ⟨q', e1, e2⟩ := h3 i n' (by simpa using hi)
          refine ⟨q', e1, fun c hc => ?_⟩
          rw [List.getElem?_append_right (by omega), hl, ← e2 c hc]
          congr 1
          omega

/-! ### The property -/

/-- C157, partial: if each material that the mesh uses is defined, with a diffuse colour and an alpha value, then
the texture has the bytes of its last definition.  Missing: materials without `Kd` or without `d`, and materials
that are not defined. -/
theorem C157_rgba_partial (files : List (List Mat)) (names : List String) (hr : Ratios files)
    (hd : ∀ n ∈ names, ∃ m, IsDef files n m ∧ m.hasCol .diffuse = true ∧ m.hasNum .alpha = true) :
    ∃ r, rgba files names = some r ∧ Spec files names r := by
  have key : ∀ n ∈ names, ∃ m r g b a, IsDef files n m ∧ m.hasCol .diffuse = true ∧ m.hasNum .alpha = true ∧
      bytes (texture (mtlExtract files) n) = some [r, g, b, a] ∧ IsByte r (m.col .diffuse 0) ∧
      IsByte g (m.col .diffuse 1) ∧ IsByte b (m.col .diffuse 2) ∧ IsByte a (m.num .alpha) := by
    intro n hn
    obtain ⟨m, hm, h1, h2⟩ := hd n hn
    have hmem : m ∈ files.flatten := by obtain ⟨p, q, e, -, -⟩ := hm; rw [e]; simp
    obtain ⟨r, g, b, a, hb⟩ := bytes_extract m (hr m hmem).1 (hr m hmem).2
    exact ⟨m, r, g, b, a, hm, h1, h2, by rw [texture_def files n m hm]; exact hb.1, hb.2⟩
  obtain ⟨R, e1, e2, e3⟩ := rgbaFrom_spec (mtlExtract files) names (by
    intro n hn
    obtain ⟨m, r, g, b, a, -, -, -, hb, -⟩ := key n hn
    exact ⟨_, hb, rfl⟩)
  refine ⟨R, e1, e2, fun i n hi c => ?_⟩
  have hn := List.mem_of_getElem? hi
  obtain ⟨m, r, g, b, a, hm, h1, h2, hb, k1, k2, k3, k4⟩ := key n hn
  obtain ⟨q, hq, hc⟩ := e3 i n hi
  rw [hb] at hq
  simp only [Option.some.injEq] at hq
  subst hq
  rw [hc c.1 c.2]
  have hno : (∀ m ∈ files.flatten, m.name ≠ n) → False := by
    intro h
    obtain ⟨p, q, e, en, -⟩ := hm
    exact h m (by rw [e]; simp) en
  have hch : ∀ m', IsDef files n m' → m' = m := fun m' hm' => isDef_unique files n m' m hm' hm
  match c with
  | 0 => exact ⟨r, rfl, fun m' hm' => by rw [hch m' hm']; simpa [channel, h1] using k1, fun h => (hno h).elim⟩
  | 1 => exact ⟨g, rfl, fun m' hm' => by rw [hch m' hm']; simpa [channel, h1] using k2, fun h => (hno h).elim⟩
  | 2 => exact ⟨b, rfl, fun m' hm' => by rw [hch m' hm']; simpa [channel, h1] using k3, fun h => (hno h).elim⟩
  | 3 => exact ⟨a, rfl, fun m' hm' => by
      rw [hch m' hm']
      have : channel (some m) 3 = m.num .alpha := by
        simp only [channel]; rw [dif_neg (by decide), if_pos h2]
      rw [this]; exact k4, fun h => (hno h).elim⟩

/-- A red material, half transparent, as `newmtl red`, `Kd 1 0 0`, `d 0.5` make it. -/
def red : Mat :=
  { Mat.new "red" with
    col := fun c j => if c = .diffuse ∧ j = 0 then 1 else 0, hasCol := fun c => c = .diffuse
    num := fun s => if s = .alpha then 1 / 2 else 0, hasNum := fun s => s = .alpha }

/-- A red material without `d`. -/
def opaqueRed : Mat := { red with num := fun _ => 0, hasNum := fun _ => false }

/-- A material with `d 1` only. -/
def plain : Mat :=
  { Mat.new "plain" with num := fun s => if s = .alpha then 1 else 0, hasNum := fun s => s = .alpha }

/-- The hypotheses of `C157_rgba_partial` hold for it. -/
example : Ratios [[red]] ∧ ∀ n ∈ ["red"], ∃ m, IsDef [[red]] n m ∧ m.hasCol .diffuse = true ∧
    m.hasNum .alpha = true := by
  constructor
  · intro m hm
    simp at hm
    subst hm
    constructor
    · intro j; simp only [red]; split_ifs <;> norm_num
    · simp [red]; norm_num
  · intro n hn
    simp at hn
    subst hn
    exact ⟨red, ⟨[], [], rfl, rfl, by simp⟩, by simp [red], by simp [red]⟩

example : rgba [[red]] ["red"] = some [255, 0, 0, 128] := by decide +kernel

/-- C157, violated: a material without `d` becomes wholly transparent rather than opaque. -/
theorem C157_alpha_violates : ∃ files names r, rgba files names = some r ∧ Ratios files ∧
    ¬ Spec files names r := by
  refine ⟨[[opaqueRed]], ["red"], [255, 0, 0, 0], by decide +kernel, ?_, ?_⟩
  · intro m hm
    simp at hm
    subst hm
    refine ⟨fun j => ?_, by simp [opaqueRed]⟩
    simp only [opaqueRed, red]; split_ifs <;> norm_num
  · rintro ⟨-, h⟩
    obtain ⟨b, hb, h1, -⟩ := h 0 "red" rfl 3
    have hb : b = 0 := (Option.some.inj hb).symm
    subst hb
    have := (h1 opaqueRed ⟨[], [], rfl, rfl, by simp⟩).2.2
    have hc : channel (some opaqueRed) 3 = 1 := by
      simp only [channel]; rw [dif_neg (by decide)]; rfl
    rw [hc] at this
    norm_num at this

/-- C157, violated: a material without `Kd` becomes black rather than grey. -/
theorem C157_diffuse_violates : ∃ files names r, rgba files names = some r ∧ Ratios files ∧
    (∀ m ∈ files.flatten, m.hasNum .alpha = true) ∧ ¬ Spec files names r := by
  refine ⟨[[plain]], ["plain"], [0, 0, 0, 255], by decide +kernel, ?_, by simp [plain], ?_⟩
  · intro m hm
    simp at hm
    subst hm
    simp [plain, Mat.new]
  · rintro ⟨-, h⟩
    obtain ⟨b, hb, h1, -⟩ := h 0 "plain" rfl 0
    simp at hb
    subst hb
    have := (h1 plain ⟨[], [], rfl, rfl, by simp⟩).2.2
    have hc : channel (some plain) 0 = 1 / 2 := by
      simp only [channel]; rw [dif_pos (by decide)]; rfl
    rw [hc] at this
    norm_num [abs_le] at this

/-- C157, violated: a material that is not defined is an error, whatever the files, although the code has a
default. -/
theorem C157_undefined_violates (files : List (List Mat)) (name : String) (names : List String)
    (hn : name ∈ names) (h : ∀ m ∈ files.flatten, m.name ≠ name) : rgba files names = none := by
  have ht : texture (mtlExtract files) name = [] := by
    have : ∀ l : List (String × Props), (∀ q ∈ l, q.1 ≠ name) → assoc name l = none := by
      intro l hl
      induction l with
      | nil => rfl
      | cons q l ih => rw [assoc, if_neg (hl q (by simp))]; exact ih fun q hq => hl q (by simp [hq])
    rw [texture, mtlExtract_eq, this]
    intro q hq
    simp only [List.mem_reverse, List.mem_map] at hq
    obtain ⟨m, hm, rfl⟩ := hq
    exact h m hm
  unfold rgba
  induction names with
  | nil => simp at hn
  | cons n ns ih =>
      rw [rgbaFrom]
      rcases List.mem_cons.1 hn with rfl | hn
      · rw [ht]; rfl
      · rw [ih hn]; cases bytes (texture (mtlExtract files) n) <;> rfl

example : rgba [[red]] ["red", "blue"] = none :=
  C157_undefined_violates _ "blue" _ (by simp) (by simp [red, Mat.new])

end Verif.MtlLisp
