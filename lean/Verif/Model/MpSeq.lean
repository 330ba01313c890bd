import Mathlib.Data.Real.Basic
import Mathlib.Algebra.Order.Floor.Semiring
import Mathlib.Algebra.Order.Archimedean.Real.Basic

/-!
# Sequences of motion plans and their display (src/rx/mp_seq.cpp, src/rx/sdl_win.c)

Numbers are real, times are seconds.  Scene graphs are names; `cc` gives the number of their configuration
variables, which does not change.  `none` is undefined behaviour or a failed assertion.  Counts are natural
numbers: the sum of the lengths is assumed to be below `2^64`.
-/

namespace Verif.MpSeq

noncomputable section

/-- mp_seq.cpp:45-49 `struct aa_rx_mp_seq_elt`; `path` is the block that was allocated for it. -/
structure Elt where
  path : List ℝ
  nPoints : Nat
  sg : Nat

/-- mp_seq.cpp:51-54 `struct aa_rx_mp_seq`. -/
structure Seq where
  data : List Elt
  nPoints : Nat

/-- mp_seq.cpp:58-64 `aa_rx_mp_seq_create`. -/
def create : Seq := ⟨[], 0⟩

/-- mp_seq.cpp:77-89 `aa_rx_mp_seq_append_all`; `q` is what the array of the caller contains. -/
def appendAll (cc : Nat → Nat) (s : Seq) (sg nPath : Nat) (q : List ℝ) : Option Seq :=
  if q.length < cc sg * nPath then none
  else
    let elt : Elt := ⟨q.take (cc sg * nPath), nPath, sg⟩
    some ⟨s.data ++ [elt], s.nPoints + nPath⟩

/-- mp_seq.cpp:92-96 `aa_rx_mp_seq_count`. -/
def count (s : Seq) : Nat := s.data.length

/-- mp_seq.cpp:98-102 `aa_rx_mp_seq_point_count`. -/
def pointCount (s : Seq) : Nat := s.nPoints

/-- mp_seq.cpp:105-121 `aa_rx_mp_seq_elt`: the graph, the number of points and the path; `none` is a null
pointer. -/
def elt (s : Seq) (i : Nat) : Option Nat × Nat × Option (List ℝ) :=
  match s.data[i]? with
  | none => (none, 0, none)
  | some e => (some e.sg, e.nPoints, some e.path)

/-- mp_seq.cpp:68-75 `aa_rx_mp_seq_destroy`: the number of blocks that are released.  The object with the
vector is one, every element has a structure and a path. -/
def destroy (s : Seq) : Nat := s.data.length + 1

/-- The number of blocks that belong to the sequence. -/
def blocks (s : Seq) : Nat := 2 * s.data.length + 1

/-- `AA_MATCOL(path, m, i)` and the `m` numbers there; `none`: outside of the block. -/
def col (path : List ℝ) (m i : Nat) : Option (List ℝ) :=
  if (i + 1) * m ≤ path.length then some ((path.drop (i * m)).take m) else none

/-- src/la.c:413-421 `aa_la_linterp`, src/la_impl.c:361-374 `aa_la_d_lerp`. -/
def linterp (t0 : ℝ) (x0 : List ℝ) (t1 : ℝ) (x1 : List ℝ) (t : ℝ) : List ℝ :=
  List.zipWith (fun a b => a + (t - t0) / (t1 - t0) * (b - a)) x0 x1

/-- sdl_win.c:676 `dt`. -/
def dt : ℝ := 4 / 5

/-- sdl_win.c:580-630 `plan_display_1`: the graph and the configuration that are drawn; `t` is the time since
`plan_t0`. -/
def planDisplay1 (cc : Nat → Nat) (t : ℝ) (sg : Option Nat) (nPoints : Nat) (path : Option (List ℝ))
    (offset : Nat) : Option (Nat × List ℝ) :=
  match sg, path with
  | some sg, some path =>
    let i0 := ⌊t / dt⌋₊
    if i0 < offset then none
    else
      let i0 := i0 - offset
      let i1 := i0 + 1
      let m := cc sg
      let i1 := if nPoints = i1 then i0 else i1
      /- the assertions -/
      if nPoints ≤ i0 ∨ nPoints ≤ i1 then none
      /- `double q[m]` -/
      else if m = 0 then none
      else
        match col path m i0, col path m i1 with
        | some q0, some q1 =>
          if i0 = i1 then some (sg, q0)
          else some (sg, linterp (i0 * dt) q0 (i1 * dt) q1 (t - dt * offset))
        | _, _ => none
  | _, _ => none

/-- sdl_win.c:694-702 the loop of `mp_seq_display`: the element of the last turn, and the offset. -/
def locate (i0 : Nat) : List Elt → Option Elt → Nat → Option Elt × Nat
  | [], cur, offset => (cur, offset)
  | e :: es, _, offset =>
    if i0 < offset + e.nPoints then (some e, offset) else locate i0 es (some e) (offset + e.nPoints)

/-- sdl_win.c:662-715 `mp_seq_display`, but for the first frame: the new `plan_t0` and what is drawn. -/
def display (cc : Nat → Nat) (s : Seq) (t0 now : ℝ) : Option (ℝ × Nat × List ℝ) :=
  let t := now - t0
  /- conversion of a negative number to `size_t` -/
  if t < 0 then none
  else
    let i0 := ⌊t / dt⌋₊
    let i1 := i0 + 1
    if pointCount s < i1 then
      let e := elt s 0
      (planDisplay1 cc (now - now) e.1 e.2.1 e.2.2 0).map fun r => (now, r)
    else
      let l := locate i0 s.data none 0
      (planDisplay1 cc t (l.1.map Elt.sg) (l.1.elim 0 Elt.nPoints) (l.1.map Elt.path) l.2).map fun r => (t0, r)

/-- sdl_win.c:666-672 the first frame of a window: nothing is drawn, and `plan_t0` is the time at which the window
started; 782-784: before that it is zero. -/
def firstFrame (initial : ℝ) : ℝ := initial

@[inherit_doc firstFrame] def initialT0 : ℝ := 0

end

end Verif.MpSeq
