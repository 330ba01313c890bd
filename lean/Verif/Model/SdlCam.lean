import Verif.Model.GlCam

/-! Keyboard and mouse control of the camera (src/amino_sdl.c). Numbers are reals;
the view matrix that belongs to the pose is that of `Model/GlCam.lean`. -/

namespace Verif.SdlCam

open Verif.Tf Verif.Gl

/-- State of the modifier keys (src/amino_sdl.c:316-321). -/
structure Mods where
  shift : Bool
  ctrl : Bool
  alt : Bool

/-- The keys that are distinguished (src/amino_sdl.c:348-401). -/
inductive Key where
  | kp2 | kp8 | kp4 | kp6 | minus | plus | home | c | other
deriving DecidableEq

/-- The events that are distinguished (src/amino_sdl.c:328-447). `down` has the
position that `SDL_GetMouseState` reports, `wheel` also the left button. -/
inductive Ev where
  | exposed
  | resized (w h : ℤ)
  | key (k : Key)
  | down (x y : ℤ)
  | motion (x y : ℤ) (left right : Bool)
  | wheel (y : ℤ) (left : Bool)
  | other

/-- The members that the events use (include/amino/rx/scene_gl_internal.h:75-77) and
the flag `*update`. -/
structure View where
  G : Globals
  mouseX : ℤ
  mouseY : ℤ
  scrollRatio : ℝ
  angleRatio : ℝ
  update : Bool

/-- src/amino_sdl.c:295-310 `scroll`: the transform `E_pre`; `E_post` is the identity.
`R_cam` points to the first column of the rotation matrix. -/
noncomputable def scroll (x y : ℝ) (R : M3) : Qutr :=
  ⟨qmul (axang2quat ⟨⟨0, 0, 1⟩, y⟩) (axang2quat ⟨⟨R.m0, R.m1, R.m2⟩, x⟩), ⟨0, 0, 0⟩⟩

/-- src/amino_sdl.c:449-457: the update of the camera. -/
noncomputable def move (V : View) (pre post : Qutr) : View :=
  { V with
    G := setCamera V.G (qutrMul (qutrMul pre V.G.worldECam) post)
    update := true }

/-- The identity with a translation. -/
def shiftE (x y z : ℝ) : Qutr := ⟨qident, ⟨x, y, z⟩⟩

/-- src/amino_sdl.c:312-461 `aa_sdl_scroll_event`. The clipboard and the viewport of
OpenGL are left out. -/
noncomputable def scrollEvent (V : View) (m : Mods) (e : Ev) : View :=
  let R := quat2rotmat V.G.worldECam.q
  let s := V.scrollRatio
  let a := V.angleRatio
  match e with
  | .exposed => { V with update := true }
  | .resized w h => { V with G := setAspect V.G ((w : ℝ) / (h : ℝ)) }
  | .key .kp2 =>
      if m.ctrl then move V qutrident (shiftE 0 (0 + (-1) * s) 0)
      else move V (scroll ((-1) * a) 0 R) qutrident
  | .key .kp8 =>
      if m.ctrl then move V qutrident (shiftE 0 (0 + 1 * s) 0)
      else move V (scroll (1 * a) 0 R) qutrident
  | .key .kp4 =>
      if m.ctrl then move V qutrident (shiftE (0 + (-1) * s) 0 0)
      else move V (scroll 0 ((-1) * a) R) qutrident
  | .key .kp6 =>
      if m.ctrl then move V qutrident (shiftE (0 + 1 * s) 0 0)
      else move V (scroll 0 (1 * a) R) qutrident
  | .key .minus => move V qutrident (shiftE 0 0 (0 - (-1) * s))
  | .key .plus => move V qutrident (shiftE 0 0 (0 - 1 * s))
  | .key .home => move { V with G := homeCamera V.G } qutrident qutrident
  | .key .c => V
  | .key .other => V
  | .down x y => { V with mouseX := x, mouseY := y }
  | .motion x y left right =>
      let dx : ℝ := ((x - V.mouseX : ℤ) : ℝ)
      let dy : ℝ := ((y - V.mouseY : ℤ) : ℝ)
      let V' :=
        if left then move V (scroll (-(1 / 10) * a * dy) (-(1 / 10) * a * dx) R) qutrident
        else if right then move V qutrident (shiftE (-(1 / 10) * s * dx) (1 / 10 * s * dy) 0)
        else V
      { V' with mouseX := x, mouseY := y }
  | .wheel y left =>
      if m.ctrl && m.shift || left then
        move V qutrident ⟨angle2quat .Z (a * y), ⟨0, 0, 0⟩⟩
      else if m.alt && m.shift then move V (scroll (a * y) 0 R) qutrident
      else if m.alt && m.ctrl then move V (scroll 0 (a * y) R) qutrident
      else if m.ctrl then move V qutrident (shiftE (s * y) 0 0)
      else if m.shift then move V qutrident (shiftE 0 (s * y) 0)
      else if !m.ctrl && !m.shift && !m.alt then move V qutrident (shiftE 0 0 (-s * y))
      else move V qutrident qutrident
  | .other => V

/-- A sequence of events with the modifier keys at that time. -/
noncomputable def events (V : View) (es : List (Mods × Ev)) : View :=
  es.foldl (fun V e => scrollEvent V e.1 e.2) V

end Verif.SdlCam
