import Mathlib.Data.List.Sort

/-!
# Videos of rendered frames

lisp/rx/animate.lisp:195-239 `animate-encode`, 427-431 `frame-number` and `sort-frames`.

Simplified: an image `frame-N.png` is its number; the argument is the order in which `directory` lists
the images. `sort` changes the list it is given, so the variable that held the list afterwards holds the
part of the sorted list from the element that was its first (in SBCL, where cells are linked anew). ffmpeg
reads the images of a pattern from the first number below 5 there is, as long as there is a next one.
Linking, copying and running programs do not fail.
-/

namespace Verif.Encode

/-- lisp/rx/animate.lisp:430-431 `sort-frames`. -/
def sortFrames (l : List Nat) : List Nat := l.insertionSort (· ≤ ·)

/-- What the variable `images` holds after lisp/rx/animate.lisp:202. -/
def imagesAfter (l : List Nat) : List Nat :=
  match l with
  | [] => []
  | a :: _ => (sortFrames l).dropWhile fun b => b ≠ a

/-- lisp/rx/animate.lisp:202 `last-frame-number`; `none` is the error for no images. -/
def lastFrame (l : List Nat) : Option Nat := (sortFrames l).getLast?

/-- lisp/rx/animate.lisp:203-222: the image that `vframe-N.png` is of, with copies of the last one. -/
def vframe (l : List Nat) (last pad n : Nat) : Option Nat :=
  if last < n ∧ n < last + pad then some last
  else if n ∈ imagesAfter l then some n
  else none

/-- Reading of images by ffmpeg from a number on, at most `k` of them. -/
def readFrom (vf : Nat → Option Nat) : Nat → Nat → List Nat
  | _, 0 => []
  | n, k + 1 =>
    match vf n with
    | some m => m :: readFrom vf (n + 1) k
    | none => []

/-- lisp/rx/animate.lisp:195-239 `animate-encode`: the images of the video, `none` if there is none. -/
def encode (l : List Nat) (pad : Nat) : Option (List Nat) :=
  (lastFrame l).bind fun last =>
    ((List.range 5).find? fun n => (vframe l last pad n).isSome).map fun s =>
      readFrom (vframe l last pad) s (l.length + pad)

end Verif.Encode
