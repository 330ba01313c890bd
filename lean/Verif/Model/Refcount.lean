/-! Reference counts (src/refcount.c) used by any number of threads.
`refs` is a ghost: the list of owners of the outstanding references. A thread
may call inc or dec only while it owns a reference; references can be handed to
another thread. The counter is an `unsigned int` of 32 bits. -/

namespace Verif.Refcount

abbrev U32 := BitVec 32

inductive Call where
  | inc
  | dec
deriving DecidableEq

/-- Program counter of a thread inside `aa_mem_ref_inc_mutex` /
`aa_mem_ref_dec_mutex` (src/refcount.c:71-87). -/
inductive PC where
  | idle
  | lock (c : Call)               -- before pthread_mutex_lock
  | load (c : Call)               -- holding the mutex, before `old = *count`
  | store (c : Call) (old : U32)  -- before `(*count)++` / `(*count)--`
  | unlock (c : Call) (old : U32) -- before pthread_mutex_unlock
deriving DecidableEq

/-- Shared state. `results` records `(call, returned old count)` of finished
counter updates, newest first (ghost). -/
structure St where
  count : U32
  mutex : Option Nat
  pc : Nat → PC
  refs : List Nat
  results : List (Call × U32)

def setPC (f : Nat → PC) (t : Nat) (p : PC) : Nat → PC := fun u => if u = t then p else f u

/-- New owners after the counter update of a call by `t`. -/
def owners (refs : List Nat) (t : Nat) : Call → List Nat
  | .inc => t :: refs
  | .dec => refs.erase t

/-- New counter value. -/
def bump (x : U32) : Call → U32
  | .inc => x + 1
  | .dec => x - 1

/-- Steps of the mutex version (src/refcount.c:71-87). -/
inductive StepM : St → St → Prop where
  | call (s t c) : s.pc t = .idle → t ∈ s.refs →
      StepM s { s with pc := setPC s.pc t (.lock c) }
  | lock (s t c) : s.pc t = .lock c → s.mutex = none →
      StepM s { s with mutex := some t, pc := setPC s.pc t (.load c) }
  | load (s t c) : s.pc t = .load c →
      StepM s { s with pc := setPC s.pc t (.store c s.count) }
  | store (s t c old) : s.pc t = .store c old →
      StepM s { s with count := bump s.count c, pc := setPC s.pc t (.unlock c old),
                       refs := owners s.refs t c, results := (c, old) :: s.results }
  | unlock (s t c old) : s.pc t = .unlock c old →
      StepM s { s with mutex := none, pc := setPC s.pc t .idle }
  | give (s t u) : s.pc t = .idle → t ∈ s.refs →
      StepM s { s with refs := u :: s.refs.erase t }

/-- Steps of the C11 version (src/refcount.c:49-57): one atomic fetch-and-add. -/
inductive StepA : St → St → Prop where
  | call (s t c) : s.pc t = .idle → t ∈ s.refs →
      StepA s { s with pc := setPC s.pc t (.load c) }
  | rmw (s t c) : s.pc t = .load c →
      StepA s { s with count := bump s.count c, pc := setPC s.pc t .idle,
                       refs := owners s.refs t c, results := (c, s.count) :: s.results }
  | give (s t u) : s.pc t = .idle → t ∈ s.refs →
      StepA s { s with refs := u :: s.refs.erase t }

/-- A new object: one reference, held by thread `t`. -/
def initial (t : Nat) : St :=
  { count := 1, mutex := none, pc := fun _ => .idle, refs := [t], results := [] }

/-- States reachable while fewer than 2^32 references exist. -/
inductive Reach (step : St → St → Prop) (t0 : Nat) : St → Prop where
  | init : Reach step t0 (initial t0)
  | step (s s') : Reach step t0 s → step s s' → s'.refs.length < 2 ^ 32 → Reach step t0 s'

end Verif.Refcount
