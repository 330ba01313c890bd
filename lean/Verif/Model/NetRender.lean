/-
Rendering the frames of an animation on several hosts: `net-process-host`, `net-process` and the parts of
`net-render` that hand out frames (lisp/rx/animate.lisp:378-408, 462-543).

A state is what the table of free jobs, the list of frames left, the semaphore and the processes are.  The thread of
`net-process` and the hooks that run when a process ends take steps in any order; one step is a pass of the thread to
the next place where it looks at the shared state, or one whole hook.  So hooks that interrupt the thread within
such a pass are left out.  Which host of several the table yields first is open.  Processes end whenever they like,
and whether they did their work is not looked at, as in the code; a hook runs only when its process ends.  Frames are never `nil`.
-/
import Mathlib.Data.List.Basic

namespace Verif.NetRender

variable {H I : Type} [DecidableEq H] [DecidableEq I]

/-- Where the thread of `net-process` is. -/
inductive Pc (I : Type)
  /-- about to take the next frame -/
  | next
  /-- about to look for a host -/
  | scan (i : I)
  /-- waiting for a host on the semaphore -/
  | wait (i : I)
  /-- about to test whether jobs are left -/
  | drain
  /-- waiting for jobs on the semaphore -/
  | drainWait
  | done

/-- `finished` is not in the code: the frames whose process has ended. -/
structure St (H I : Type) where
  avail : H → Option Nat
  queue : List I
  running : List (H × I)
  finished : List I
  active : Nat
  sem : Nat
  sync : List H
  pc : Pc I

/-- `(setf (gethash …) …)`, and `remhash` for `none`. -/
def set (a : H → Option Nat) (h : H) (v : Option Nat) : H → Option Nat := fun k => if k = h then v else a k

/-- What the scan of the table leaves of the jobs of the host it takes (lisp/rx/animate.lisp:383-385). -/
def takeJob (n : Nat) : Option Nat := if 1 = n then none else some (n - 1)

/-- The start of `net-render` (lisp/rx/animate.lisp:531-541): hosts on the same machine are free at once, for the
others files are copied first. -/
def init (jobs : H → Nat) (isLocal : H → Bool) (hosts : List H) (work : List I) : St H I :=
  { avail := (hosts.filter isLocal).foldl (fun a h => set a h (some (jobs h))) fun _ => none
    queue := work
    running := []
    finished := []
    active := 0
    sem := 0
    sync := hosts.filter fun h => !isLocal h
    pc := .next }

/-- The start with the first frame, which is asked for when there are hosts (lisp/rx/animate.lisp:537); `none` is the
error. -/
def start (jobs : H → Nat) (isLocal : H → Bool) (hosts : List H) (work : List I) : Option (St H I) :=
  if hosts ≠ [] ∧ work = [] then none else some (init jobs isLocal hosts work)

/-- Steps of the thread and of the hooks. -/
inductive Step (jobs : H → Nat) : St H I → St H I → Prop
  /-- `for item = (pop work-queue) while item` (lisp/rx/animate.lisp:396-397) -/
  | pop (s : St H I) (i : I) (q : List I) : s.pc = .next → s.queue = i :: q →
      Step jobs s { s with queue := q, pc := .scan i }
  | empty (s : St H I) : s.pc = .next → s.queue = [] → Step jobs s { s with pc := .drain }
  /-- a host with a free job (lisp/rx/animate.lisp:381-386 and 399-401) -/
  | take (s : St H I) (i : I) (h : H) (n : Nat) : s.pc = .scan i → s.avail h = some n → n ≠ 0 →
      Step jobs s { s with avail := set s.avail h (takeJob n), running := (h, i) :: s.running,
                           active := s.active + 1, pc := .next }
  /-- no host (lisp/rx/animate.lisp:389) -/
  | noHost (s : St H I) (i : I) : s.pc = .scan i → (∀ h n, s.avail h = some n → n = 0) →
      Step jobs s { s with pc := .wait i }
  /-- `wait-on-semaphore` returns (lisp/rx/animate.lisp:389) -/
  | wake (s : St H I) (i : I) (n : Nat) : s.pc = .wait i → s.sem = n + 1 →
      Step jobs s { s with sem := n, pc := .scan i }
  /-- `until (zerop active-jobs)` (lisp/rx/animate.lisp:407-408) -/
  | drained (s : St H I) : s.pc = .drain → s.active = 0 → Step jobs s { s with pc := .done }
  | drain (s : St H I) : s.pc = .drain → s.active ≠ 0 → Step jobs s { s with pc := .drainWait }
  | drainWake (s : St H I) (n : Nat) : s.pc = .drainWait → s.sem = n + 1 →
      Step jobs s { s with sem := n, pc := .drain }
  /-- a process ends: `release-host-thunk` (lisp/rx/animate.lisp:402-405) -/
  | finish (s : St H I) (h : H) (i : I) : (h, i) ∈ s.running →
      Step jobs s { s with running := s.running.erase (h, i), finished := i :: s.finished, active := s.active - 1,
                           avail := set s.avail h (some ((s.avail h).getD 0 + 1)), sem := s.sem + 1 }
  /-- copying ends (lisp/rx/animate.lisp:525-529) -/
  | synced (s : St H I) (h : H) : h ∈ s.sync →
      Step jobs s { s with sync := s.sync.erase h, avail := set s.avail h (some (jobs h)), sem := s.sem + 1 }

/-- States that steps lead to. -/
inductive Reach (jobs : H → Nat) (s0 : St H I) : St H I → Prop
  | start : Reach jobs s0 s0
  | step {s s' : St H I} : Reach jobs s0 s → Step jobs s s' → Reach jobs s0 s'

end Verif.NetRender
