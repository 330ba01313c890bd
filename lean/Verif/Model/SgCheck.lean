/-
Checks of scene graphs of the Lisp library: `check-frame-parent`, `check-frame-exists`, `check-scene-graph` and
`check-scene-graph-parents` (lisp/rx/scenegraph.lisp:349-368 and 808-833).

The scene graph is that of Model/LispSg.lean.  `rope-string` of no parent is the empty string, as in
Model/SgGen.lean.  A check is `true` if it signals no error; which error it signals is left out.
-/
import Verif.Model.LispSg

namespace Verif.SgCheck

open Verif.LispSg

variable {G Q D : Type}

/-- `rope-string` of the parent (lisp/rx/scenegraph.lisp:815, 827). -/
def parentOf (f : Frame G Q D) : String := f.parent.getD ""

/-- `check-frame-parent` (lisp/rx/scenegraph.lisp:349-351). -/
def checkFrameParent (parent name : String) : Bool := decide (parent ≠ name)

/-- `check-frame-exists` (lisp/rx/scenegraph.lisp:364-368). -/
def checkFrameExists (sg : SG G Q D) (n : String) : Bool :=
  decide (n.length = 0) || (find sg.frames n).isSome

/-- `check-scene-graph` (lisp/rx/scenegraph.lisp:808-822). -/
def checkSceneGraph (sg : SG G Q D) : Bool :=
  (sg.frames.all fun e => checkFrameParent (parentOf e.2) e.1 && checkFrameExists sg (parentOf e.2)) &&
  sg.allowed.all fun c => checkFrameExists sg c.1 && checkFrameExists sg c.2

/-- `check-scene-graph-parents` (lisp/rx/scenegraph.lisp:824-833). -/
def checkParents (sg : SG G Q D) : Bool :=
  sg.frames.all fun e =>
    decide ((parentOf e.2).length = 0) || (find sg.frames (parentOf e.2)).isSome

end Verif.SgCheck
