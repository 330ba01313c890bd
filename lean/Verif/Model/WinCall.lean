/-! Calls in the thread of the window (src/rx/sdl_win.c): `aa_rx_win_call` of
any number of threads, `s_handle_call`, the loop of `aa_rx_win_run` before and
after there is a window, and `aa_rx_win_create`.

The steps of the threads are interleaved; each step is one access of a static
variable, one locking operation, or one operation of the condition variable.
Thread numbers belong to the threads that are not the thread of the window; that
thread has its own program counter. Pointers are numbers, zero is NULL.

Simplified: memory is sequentially consistent (the accesses that are not
protected by the mutex are a data race, see `races`), `s_handler` and
`s_handler_arg` are read in one step for the call of the handler, the thread of
the window is the one that runs `aa_rx_win_run` (a thread that only creates the
window makes no calls afterwards), and the loop does not end. -/

namespace Verif.WinCall

/-- One call of `aa_rx_win_call( fn, ctx )`; `id` tells the calls apart (ghost). -/
structure Call where
  id : Nat
  fn : Nat
  ctx : Nat
deriving DecidableEq, Inhabited

/-- Where a calling thread is, in the order of the code of `aa_rx_win_call`
(src/rx/sdl_win.c:118-162) and of the last part of `aa_rx_win_create`
(src/rx/sdl_win.c:237-240). -/
inductive Stg where
  | idle
  | lock      -- before s_lock()
  | check     -- while( NULL != s_handler )
  | wait1     -- s_wait() of the first loop
  | asleep1   -- in pthread_cond_wait
  | relock1   -- woken, before it has the mutex again
  | setH      -- s_handler = function
  | setA      -- s_handler_arg = context
  | setR      -- s_handler_result = NULL
  | setD      -- s_handler_done = 0
  | bcast     -- s_broadcast()
  | check2    -- while( ! s_handler_done )
  | wait2     -- s_wait() of the second loop
  | asleep2
  | relock2
  | take      -- void *result = s_handler_result
  | clrR      -- s_handler_result = NULL
  | clrD      -- s_handler_done = 0
  | unlock    -- s_unlock(), return
  | cLock     -- aa_rx_win_create: s_lock()
  | cSet      -- s_win = win
  | cUnlock   -- s_unlock()
deriving DecidableEq

structure Caller where
  stg : Stg
  call : Call
  r : Nat
deriving DecidableEq

/-- Where the thread of the window is, in `aa_rx_win_run`
(src/rx/sdl_win.c:858-873), in `s_handle_call` (src/rx/sdl_win.c:165-176), at the
test of `s_handle_call` in the display function (src/rx/sdl_win.c:539-546), or in
a call of `aa_rx_win_call` by the function that it runs
(src/rx/sdl_win.c:123-134). -/
inductive WStg where
  | relock    -- before it has the mutex
  | top       -- while( NULL == s_win ), if(s_handler)
  | wait      -- s_wait()
  | asleep    -- in pthread_cond_wait
  | leave     -- s_unlock() after the loop
  | disp      -- if( s_handler ) in the display loop
  | fetch     -- reads s_handler and s_handler_arg for the call
  | run       -- in the function
  | setRes    -- s_handler_result = …
  | clrH      -- s_handler = NULL
  | clrA      -- s_handler_arg = NULL
  | setDone   -- s_handler_done = 1
  | bcast     -- s_broadcast()
  | nLock     -- aa_rx_win_call inside of the function: s_lock()
  | nRun      -- in the inner function
  | nUnlock   -- s_unlock()
deriving DecidableEq

structure Window where
  stg : WStg
  /-- the display loop has begun: there is a window -/
  disp : Bool
  call : Call
  arg : Nat
  r : Nat
  inner : Call
deriving DecidableEq

inductive Owner where
  | win
  | thread (t : Nat)
deriving DecidableEq

/-- One execution of a function in the thread of the window (ghost). -/
structure Ran where
  call : Call
  arg : Nat
  res : Nat
deriving DecidableEq

/-- The static variables `s_mutex`, `s_win`, `s_handler` (with the number of the
call, a ghost), `s_handler_arg`, `s_handler_result`, `s_handler_done`
(src/rx/sdl_win.c:66-77), the threads, and what has happened: the functions that
were run, and the values that were returned from calls. -/
structure St where
  mutex : Option Owner
  win : Bool
  handler : Option Call
  arg : Nat
  res : Nat
  done : Bool
  pc : Nat → Caller
  w : Window
  next : Nat
  log : List Ran
  rets : List (Call × Nat)

def upd (f : Nat → Caller) (t : Nat) (p : Caller) : Nat → Caller :=
  fun u => if u = t then p else f u

/-- A sleeping caller after a broadcast. -/
def wakeC (p : Caller) : Caller :=
  match p.stg with
  | .asleep1 => { p with stg := .relock1 }
  | .asleep2 => { p with stg := .relock2 }
  | _ => p

/-- The thread of the window after a broadcast. -/
def wakeW (w : Window) : Window :=
  match w.stg with
  | .asleep => { w with stg := .relock }
  | _ => w

def to (s : St) (t : Nat) (g : Stg) : St :=
  { s with pc := upd s.pc t { s.pc t with stg := g } }

/-- One step of a thread inside of `aa_rx_win_call` or `aa_rx_win_create`
(src/rx/sdl_win.c:118-162, 237-240), `none` if it is blocked. -/
def callerStep (s : St) (t : Nat) : Option St :=
  match (s.pc t).stg with
  | .idle => none
  | .lock => if s.mutex = none then some (to { s with mutex := some (.thread t) } t .check) else none
  | .check =>
      if s.handler = none then some (to s t .setH)
      else some (to s t .wait1)
  | .wait1 => some (to { s with mutex := none } t .asleep1)
  | .asleep1 => none
  | .relock1 =>
      if s.mutex = none then some (to { s with mutex := some (.thread t) } t .check) else none
  | .setH => some (to { s with handler := some (s.pc t).call } t .setA)
  | .setA => some (to { s with arg := (s.pc t).call.ctx } t .setR)
  | .setR => some (to { s with res := 0 } t .setD)
  | .setD => some (to { s with done := false } t .bcast)
  | .bcast =>
      some (to { s with pc := fun u => wakeC (s.pc u), w := wakeW s.w } t .check2)
  | .check2 =>
      if s.done then some (to s t .take)
      else some (to s t .wait2)
  | .wait2 => some (to { s with mutex := none } t .asleep2)
  | .asleep2 => none
  | .relock2 =>
      if s.mutex = none then some (to { s with mutex := some (.thread t) } t .check2) else none
  | .take => some { s with pc := upd s.pc t { s.pc t with stg := .clrR, r := s.res } }
  | .clrR => some (to { s with res := 0 } t .clrD)
  | .clrD => some (to { s with done := false } t .unlock)
  | .unlock =>
      some (to { s with mutex := none, rets := ((s.pc t).call, (s.pc t).r) :: s.rets } t .idle)
  | .cLock =>
      if s.mutex = none then some (to { s with mutex := some (.thread t) } t .cSet) else none
  | .cSet => some (to { s with win := true } t .cUnlock)
  | .cUnlock => some (to { s with mutex := none } t .idle)

def wto (s : St) (g : WStg) : St := { s with w := { s.w with stg := g } }

/-- One step of the thread of the window (src/rx/sdl_win.c:165-176, 539-546,
858-873), `none` if it is blocked or runs a function. -/
def winStep (s : St) : Option St :=
  match s.w.stg with
  | .relock => if s.mutex = none then some (wto { s with mutex := some .win } .top) else none
  | .top =>
      if s.win then some (wto s .leave)
      else match s.handler with
        | some _ => some (wto s .fetch)
        | none => some (wto s .wait)
  | .wait => some (wto { s with mutex := none } .asleep)
  | .asleep => none
  | .leave => some { s with mutex := none, w := { s.w with stg := .disp, disp := true } }
  | .disp => if s.handler = none then some s else some (wto s .fetch)
  | .fetch =>
      match s.handler with
      | some c => some { s with w := { s.w with stg := .run, call := c, arg := s.arg } }
      | none => none
  | .run => none
  | .setRes => some (wto { s with res := s.w.r } .clrH)
  | .clrH => some (wto { s with handler := none } .clrA)
  | .clrA => some (wto { s with arg := 0 } .setDone)
  | .setDone => some (wto { s with done := true } .bcast)
  | .bcast =>
      some { s with
        pc := fun u => wakeC (s.pc u)
        w := { s.w with stg := if s.w.disp then .disp else .top } }
  | .nLock => if s.mutex = none then some (wto { s with mutex := some .win } .nRun) else none
  | .nRun => none
  | .nUnlock => some (wto { s with mutex := none } .run)

/-- What can happen next. -/
inductive Lbl where
  /-- an idle thread calls `aa_rx_win_call( fn, ctx )` -/
  | start (t fn ctx : Nat)
  /-- an idle thread is at the end of `aa_rx_win_create` -/
  | create (t : Nat)
  | caller (t : Nat)
  | win
  /-- the function that runs in the thread of the window returns -/
  | ret (r : Nat)
  /-- the function calls `aa_rx_win_call( fn, ctx )` -/
  | nest (fn ctx : Nat)
  /-- spurious wake-ups, which POSIX allows -/
  | spurC (t : Nat)
  | spurW
deriving DecidableEq

/-- One step of the program. -/
def step (s : St) : Lbl → Option St
  | .start t fn ctx =>
      if (s.pc t).stg = .idle then
        some { s with pc := upd s.pc t ⟨.lock, ⟨s.next, fn, ctx⟩, 0⟩, next := s.next + 1 }
      else none
  | .create t =>
      if (s.pc t).stg = .idle ∧ s.win = false then some (to s t .cLock) else none
  | .caller t => callerStep s t
  | .win => winStep s
  | .ret r =>
      match s.w.stg with
      | .run => some { s with w := { s.w with stg := .setRes, r := r }
                              log := ⟨s.w.call, s.w.arg, r⟩ :: s.log }
      | .nRun => some { s with w := { s.w with stg := .nUnlock }
                               log := ⟨s.w.inner, s.w.inner.ctx, r⟩ :: s.log
                               rets := (s.w.inner, r) :: s.rets }
      | _ => none
  | .nest fn ctx =>
      match s.w.stg with
      | .run => some { s with w := { s.w with stg := .nLock, inner := ⟨s.next, fn, ctx⟩ }
                              next := s.next + 1 }
      | _ => none
  | .spurC t =>
      match (s.pc t).stg with
      | .asleep1 => some { s with pc := upd s.pc t (wakeC (s.pc t)) }
      | .asleep2 => some { s with pc := upd s.pc t (wakeC (s.pc t)) }
      | _ => none
  | .spurW =>
      match s.w.stg with
      | .asleep => some { s with w := wakeW s.w }
      | _ => none

/-- The static variables before any call (src/rx/sdl_win.c:66-77), `aa_rx_win_run`
before it takes the mutex. -/
def init : St :=
  { mutex := none, win := false, handler := none, arg := 0, res := 0, done := false
    pc := fun _ => ⟨.idle, ⟨0, 0, 0⟩, 0⟩
    w := ⟨.relock, false, ⟨0, 0, 0⟩, 0, 0, ⟨0, 0, 0⟩⟩
    next := 1, log := [], rets := [] }

/-- The steps of a schedule, `none` if one of them is blocked. -/
def exec (s : St) : List Lbl → Option St
  | [] => some s
  | l :: ls => (step s l).bind fun s' => exec s' ls

/-- The thread is about to access one of the variables of the handler, and
whether it writes. -/
def accessC : Stg → Option Bool
  | .check => some false
  | .setH | .setA | .setR | .setD | .clrR | .clrD => some true
  | .check2 | .take => some false
  | _ => none

def accessW : WStg → Option Bool
  | .top | .disp | .fetch => some false
  | .setRes | .clrH | .clrA | .setDone => some true
  | _ => none

/-- Two threads may access the handler variables at the same time, and one of
them writes. -/
def races (s : St) : Prop :=
  (∃ t b c, accessC (s.pc t).stg = some b ∧ accessW s.w.stg = some c ∧ (b || c) = true) ∨
  (∃ t u b c, t ≠ u ∧ accessC (s.pc t).stg = some b ∧ accessC (s.pc u).stg = some c ∧
    (b || c) = true)

end Verif.WinCall
