import Verif.Model.SgKin

/-!
# Model: sub-scenegraphs and Jacobians (src/rx/scene_kin.c, src/rx/scene_sub.cpp)

Arrays passed to the functions are functions from index to value.  Loops that follow parents have a
bound on the number of iterations and return `none` when it is exceeded, and also for undefined
behaviour.
-/

namespace Verif.Sg

open Verif.Tf

section
variable {P : Type}

/-- src/rx/scene_kin.c:134-153 `aa_rx_sg_chain_frame_count`; all three frame types are counted. -/
def chainCount (g : Graph P) (root : Int) : Nat → Int → Option Nat
  | 0, _ => none
  | n + 1, tip =>
    if tip = root ∨ tip = frameRoot then some 0
    else
      match frameType g tip, frameParent g tip with
      | some _, some p => (chainCount g root n p).map (· + 1)
      | _, _ => none

/-- src/rx/scene_kin.c:155-176 `aa_rx_sg_chain_frames`: `k` is `ptr - chain_frames + 1`, so the loop
writes element `k - 1` and stops when `k` is zero.  (For `n_frames = 0` the C code forms a pointer
before the array.) -/
def chainFrames (g : Graph P) (root : Int) :
    Nat → Nat → Int → (Nat → Int) → Option (Nat → Int)
  | 0, _, _, _ => none
  | n + 1, k, tip, buf =>
    if tip = root ∨ tip = frameRoot ∨ k = 0 then some buf
    else
      match frameType g tip, frameParent g tip with
      | some _, some p => chainFrames g root n (k - 1) p (Function.update buf (k - 1) tip)
      | _, _ => none

/-- src/rx/scene_kin.c:178-196 `aa_rx_sg_chain_config_count`, counting from the last frame. -/
def chainConfigCount (g : Graph P) (frames : Nat → Int) : Nat → Option Nat
  | 0 => some 0
  | n + 1 =>
    match frameType g (frames n) with
    | none => none
    | some Kind.fixed => chainConfigCount g frames n
    | some _ => (chainConfigCount g frames n).map (· + 1)

/-- src/rx/scene_kin.c:199-220 `aa_rx_sg_chain_configs`: `n` frames are left from index `i`, the
next configuration is written at `j`. -/
def chainConfigs (g : Graph P) (frames : Nat → Int) (nConfigs : Nat) :
    Nat → Nat → Nat → (Nat → Int) → Option (Nat → Int)
  | 0, _, _, buf => some buf
  | n + 1, i, j, buf =>
    if j < nConfigs then
      match frameType g (frames i) with
      | none => none
      | some Kind.fixed => chainConfigs g frames nConfigs n (i + 1) j buf
      | some _ =>
        match frameConfig g (frames i) with
        | none => none
        | some c => chainConfigs g frames nConfigs n (i + 1) (j + 1) (Function.update buf j c)
    else some buf

/-- include/amino/rx/scene_ik_internal.h `struct aa_rx_sg_sub`; the end effectors may have been
left unset. -/
structure Sub where
  frameCount : Nat
  frames : Nat → Int
  configCount : Nat
  configs : Nat → Int
  ees : Option (List Int)

/-- src/rx/scene_kin.c:309-332 `aa_rx_sg_chain_create`; `fbuf` and `cbuf` are what the new arrays
hold. -/
def chainCreate (g : Graph P) (root tip : Int) (fuel : Nat) (fbuf cbuf : Nat → Int) : Option Sub :=
  match chainCount g root fuel tip with
  | none => none
  | some n =>
    match chainFrames g root fuel n tip fbuf with
    | none => none
    | some fs =>
      match chainConfigCount g fs n with
      | none => none
      | some m =>
        match chainConfigs g fs m n 0 0 cbuf with
        | none => none
        | some cs => some ⟨n, fs, m, cs, some [tip]⟩

/-- src/rx/scene_sub.cpp:113-127: the loop that climbs from one tip; `fs` is the `std::set`.  The
test at line 116 leaves the loop when the frame is *not* in the set. -/
def multiClimb (g : Graph P) (root : Int) : Nat → Int → List Int → Option (List Int)
  | 0, _, _ => none
  | n + 1, tip, fs =>
    if tip = root ∨ tip = frameRoot then some fs
    else if tip ∉ fs then some fs
    else
      match frameType g tip, frameParent g tip with
      | some _, some p => multiClimb g root n p (if tip ∈ fs then fs else tip :: fs)
      | _, _ => none

/-- src/rx/scene_sub.cpp:102-139 `aa_rx_sg_chain_multiple_frames`: the frames returned. -/
def multipleFrames (g : Graph P) (root : Int) (fuel : Nat) : List Int → List Int → Option (List Int)
  | [], fs => some (fs.mergeSort (· ≤ ·))
  | t :: ts, fs =>
    match multiClimb g root fuel t fs with
    | none => none
    | some fs => multipleFrames g root fuel ts fs

/-- src/rx/scene_kin.c:347-374 `aa_rx_sg_multiple_chain_create`: `ees` and `ee_count` are not set. -/
def multipleChainCreate (g : Graph P) (root : Int) (tips : List Int) (fuel : Nat)
    (cbuf : Nat → Int) : Option Sub :=
  match multipleFrames g root fuel tips [] with
  | none => none
  | some l =>
    let fs : Nat → Int := fun i => l.getD i 0
    match chainConfigCount g fs l.length with
    | none => none
    | some m =>
      match chainConfigs g fs m l.length 0 0 cbuf with
      | none => none
      | some cs => some ⟨l.length, fs, m, cs, none⟩

end

/-! ## Configurations (K is the type of the numbers) -/

section
variable {K : Type}

/-- Pointer arithmetic with a configuration number: undefined for a negative one. -/
def cidx (s : Sub) (i : Nat) : Option Nat :=
  if 0 ≤ s.configs i then some (s.configs i).toNat else none

/-- src/rx/scene_kin.c:249-263 `aa_rx_sg_sub_config_scatter` without the length check: `n` elements
are left from index `i`; `sub` and `all` are the memory at the `data` pointers. -/
def scatterLoop (s : Sub) (sub : Nat → K) (subInc allInc : Nat) :
    Nat → Nat → (Nat → K) → Option (Nat → K)
  | 0, _, all => some all
  | n + 1, i, all =>
    match cidx s i with
    | none => none
    | some c => scatterLoop s sub subInc allInc n (i + 1)
        (Function.update all (c * allInc) (sub (i * subInc)))

/-- src/rx/scene_kin.c:266-280 `aa_rx_sg_sub_config_gather` without the length check. -/
def gatherLoop (s : Sub) (all : Nat → K) (allInc subInc : Nat) :
    Nat → Nat → (Nat → K) → Option (Nat → K)
  | 0, _, sub => some sub
  | n + 1, i, sub =>
    match cidx s i with
    | none => none
    | some c => gatherLoop s all allInc subInc n (i + 1)
        (Function.update sub (i * subInc) (all (c * allInc)))

/-- scatter and gather with the check of the lengths, which calls the error handler (`none`) when
they differ. -/
def scatter (s : Sub) (nAll : Nat) (subLen subInc : Nat) (sub : Nat → K) (allLen allInc : Nat)
    (all : Nat → K) : Option (Nat → K) :=
  if subLen ≠ s.configCount ∨ allLen ≠ nAll then none
  else scatterLoop s sub subInc allInc s.configCount 0 all

def gather (s : Sub) (nAll : Nat) (allLen allInc : Nat) (all : Nat → K) (subLen subInc : Nat)
    (sub : Nat → K) : Option (Nat → K) :=
  if subLen ≠ s.configCount ∨ allLen ≠ nAll then none
  else gatherLoop s all allInc subInc s.configCount 0 sub

/-- src/rx/sg_api.cpp:509-520 `aa_rx_sg_config_set`, scene_kin.c:235-246 `aa_rx_sg_sub_config_set`
at an offset into both arrays. -/
def configSet (s : Sub) (sub : Nat → K) (subOff allOff : Nat) : Nat → Nat → (Nat → K) →
    Option (Nat → K)
  | 0, _, all => some all
  | n + 1, i, all =>
    match cidx s i with
    | none => none
    | some c => configSet s sub subOff allOff n (i + 1)
        (Function.update all (allOff + c) (sub (subOff + i)))

/-- src/rx/sg_api.cpp:496-507 `aa_rx_sg_config_get`, scene_kin.c:223-233
`aa_rx_sg_sub_config_get`. -/
def configGet (s : Sub) (all : Nat → K) : Nat → Nat → (Nat → K) → Option (Nat → K)
  | 0, _, sub => some sub
  | n + 1, i, sub =>
    match cidx s i with
    | none => none
    | some c => configGet s all n (i + 1) (Function.update sub i (all c))

/-- src/rx/scene_kin.c:293-299: copying the start configuration to every point. -/
def fillStart (nAll : Nat) (start : Nat → K) : Nat → (Nat → K) → (Nat → K)
  | 0, p => p
  | n + 1, p =>
    let p := fillStart nAll start n p
    fun k => if n * nAll ≤ k ∧ k < n * nAll + nAll then start (k - n * nAll) else p k

/-- src/rx/scene_kin.c:301-305: setting the sub configuration of every point, `n` left from `i`. -/
def setPoints (s : Sub) (nAll : Nat) (path : Nat → K) : Nat → Nat → (Nat → K) → Option (Nat → K)
  | 0, _, p => some p
  | n + 1, i, p =>
    match configSet s path (i * s.configCount) (i * nAll) s.configCount 0 p with
    | none => none
    | some p => setPoints s nAll path n (i + 1) p

/-- src/rx/scene_kin.c:283-306 `aa_rx_sg_sub_expand_path`; `start = none` is NULL. -/
def expandPath (s : Sub) (nAll nPts : Nat) (start : Option (Nat → K)) (path : Nat → K)
    (all : Nat → K) : Option (Nat → K) :=
  let all := match start with
    | none => all
    | some q => fillStart nAll q nPts all
  setPoints s nAll path nPts 0 all

end

/-! ## Jacobians -/

/-- One column: rotational and translational part. -/
structure JCol where
  r : V3
  p : V3

/-- src/rx/scene_kin.c:405-434 (`aa_rx_sg_sub_jac_twist_fill2`): the column of a joint with axis
`a` whose frame has the absolute transform `E`. -/
def twistCol (k : Kind) (a : V3) (E : Qutr) : JCol :=
  match k with
  | Kind.revolute => ⟨qrot E.q a, cross E.v (qrot E.q a)⟩
  | _ => ⟨⟨0, 0, 0⟩, qrot E.q a⟩

/-- src/rx/scene_kin.c:497-523 (`aa_rx_sg_sub_jac_vel_fill2`) and 586-613
(`aa_rx_sg_chain_jacobian`): the same with the end effector at `pe`. -/
def velCol (k : Kind) (a : V3) (E : Qutr) (pe : V3) : JCol :=
  match k with
  | Kind.revolute =>
    ⟨qrot E.q a, cross (qrot E.q a) ⟨pe.x - E.v.x, pe.y - E.v.y, pe.z - E.v.z⟩⟩
  | _ => ⟨⟨0, 0, 0⟩, qrot E.q a⟩

/-- The loop shared by the Jacobian functions (scene_kin.c:393-436, 487-530, 574-617): `n` frames
are left from index `i` and `m` columns may still be written.  The result is the list of columns
written. -/
def jacLoop (g : Graph Body) (col : Kind → V3 → Qutr → JCol) (abs : List Qutr) (frames : Nat → Int) :
    Nat → Nat → Nat → Option (List JCol)
  | 0, _, _ => some []
  | n + 1, i, m =>
    if m = 0 then some []
    else
      match entry g (frames i) with
      | none => none
      | some e =>
        match e.frame.kind with
        | Kind.fixed => jacLoop g col abs frames n (i + 1) m
        | k =>
          match parentCol abs (frames i) with
          | none => none
          | some E =>
            (jacLoop g col abs frames n (i + 1) (m - 1)).map (col k e.frame.body.axis E :: ·)

/-- src/rx/scene_kin.c:378-439 `aa_rx_sg_sub_jac_twist_fill2`. -/
def jacTwist (g : Graph Body) (s : Sub) (abs : List Qutr) : Option (List JCol) :=
  jacLoop g twistCol abs s.frames s.frameCount 0 s.configCount

/-- src/rx/scene_kin.c:464-533 `aa_rx_sg_sub_jac_vel_fill2`; 561-618 `aa_rx_sg_chain_jacobian`;
636-646 `aa_rx_sg_sub_jacobian`.  The end effector is the last frame, so an empty chain reads before
the array. -/
def jacVel (g : Graph Body) (s : Sub) (abs : List Qutr) : Option (List JCol) :=
  if s.frameCount = 0 then none
  else
    match parentCol abs (s.frames (s.frameCount - 1)) with
    | none => none
    | some Ee =>
      jacLoop g (fun k a E => velCol k a E Ee.v) abs s.frames s.frameCount 0 s.configCount

end Verif.Sg
