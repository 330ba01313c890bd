import Verif.Model.Time
import Mathlib.Data.Real.Basic
import Mathlib.Algebra.Order.Floor.Ring
import Mathlib.Algebra.Order.Archimedean.Real.Basic

/-! The display loop of a window and the handlers of events (src/amino_sdl.c,
src/sdl_handler.c, src/sdl_ui.c). The clock, the queue of events and the functions of
the user are arbitrary. -/

namespace Verif.SdlLoop

open Verif.Time

/-- The members of `SDL_Event` that the loop looks at, and the rest. -/
structure Event where
  type : Nat
  key : Int
  data : Nat
deriving DecidableEq

/-- `SDL_KEYDOWN`, `SDL_QUIT` of SDL_events.h, `SDLK_BACKQUOTE`, `SDLK_F11` of
SDL_keycode.h. -/
def KEYDOWN : Nat := 0x300
def QUIT : Nat := 0x100
def BACKQUOTE : Int := 0x60
def F11 : Int := 0x40000044

/-- The pointer `event` of the parameters: not initialised, to the event that is
being handled, or to an object whose lifetime is over. -/
inductive EvPtr where
  | uninit
  | live (e : Event)
  | dead
deriving DecidableEq

/-- src/amino_sdl.c:63-75 `struct aa_sdl_display_params`. -/
structure Params where
  timeNow : TS
  timeInitial : TS
  timeLast : TS
  event : EvPtr
  update : Bool
  quit : Bool
  first : Bool

/-- Handlers: those of src/sdl_ui.c and those of the user, with their contexts. -/
inductive Fn where
  | easter | fullscreen | quit
  | user (n : Nat)
deriving DecidableEq

/-- What a function of the user does with the interface: `aa_sdl_display_params_set_update`
and `set_quit` (src/amino_sdl.c:108-118), `aa_sdl_bind_event`, `aa_sdl_bind_key`
(src/sdl_handler.c:102-139). -/
structure Req where
  update : Bool
  quit : Bool
  bindEvents : List (Nat × Fn)
  bindKeys : List (Int × Fn)

/-- A request for nothing. -/
def Req.none : Req := ⟨false, false, [], []⟩

/-- The program around the loop: `W` is its state, with the camera. `camera` is
`aa_sdl_scroll_event`, its answer is the flag `*update`; `spnav` is the part for the
space navigator (src/amino_sdl.c:532-556), which can ask for an update. -/
structure App (W : Type) where
  handler : Nat → W → Event → Params → W × Int × Req
  display : W → Params → W × Req
  camera : W → Event → W × Bool
  fullscreen : W → Event → W
  spnav : W → W × Bool

/-- What can be observed: calls with the parameters at the call and the requests made
in it. -/
inductive Obs where
  | display (P : Params) (r : Req)
  | swap
  | wait (now : TS) (timeout : Int)
  | event (e : Event) (who : Option Fn) (P : Params) (ret : Int) (cam : Bool) (r : Req)
  | spnav (update : Bool)

/-- State of the loop: the vectors `s_event_vector` and `s_key_vector`
(src/sdl_handler.c:87-91), and the observations so far. -/
structure St (W : Type) where
  w : W
  P : Params
  events : List (Nat × Fn)
  keys : List (Int × Fn)
  trace : List Obs

/-- The effect of the requests. -/
def St.ask {W} (s : St W) (w : W) (r : Req) : St W :=
  { s with
    w := w
    P := { s.P with update := s.P.update || r.update, quit := s.P.quit || r.quit }
    events := s.events ++ r.bindEvents
    keys := s.keys ++ r.bindKeys }

/-- src/sdl_handler.c:149-162: the loops of the search. -/
def search {α} [DecidableEq α] (a : α) : List (α × Fn) → Option Fn
  | [] => none
  | h :: hs => if a = h.1 then some h.2 else search a hs

/-- A handler is called. src/sdl_ui.c:58-89: `s_handle_easter`,
`s_handle_fullscreen`, `s_handle_quit`. -/
def call {W} (A : App W) (f : Fn) (w : W) (e : Event) (P : Params) : W × Int × Req :=
  match f with
  | .easter => (w, 0, .none)
  | .fullscreen => (A.fullscreen w e, 0, .none)
  | .quit => (w, 0, { Req.none with quit := true })
  | .user n => A.handler n w e P

/-- src/sdl_handler.c:166-168: the answer of the handler, `-1` if there is none. -/
def answer {W} (A : App W) (who : Option Fn) (w : W) (e : Event) (P : Params) : W × Int × Req :=
  match who with
  | some f => call A f w e P
  | none => (w, -1, .none)

/-- src/sdl_handler.c:141-169 `aa_sdl_handle_event` and src/amino_sdl.c:524-529: an event
is handled, else it controls the camera. -/
def handle {W} (A : App W) (s : St W) (e : Event) : St W :=
  let s := { s with P := { s.P with event := .live e } }
  let who := if e.type = KEYDOWN then search e.key s.keys else search e.type s.events
  let x := answer A who s.w e s.P
  let s' := s.ask x.1 x.2.2
  if x.2.1 ≠ 0 then
    let y := A.camera s'.w e
    { s' with
      w := y.1
      P := { s'.P with update := s'.P.update || y.2 }
      trace := s.trace ++ [.event e who s.P x.2.1 true { x.2.2 with update := x.2.2.update || y.2 }] }
  else { s' with trace := s.trace ++ [.event e who s.P x.2.1 false x.2.2] }

/-- src/amino_sdl.c:511-530: the loop that waits for events until the time of the next
frame. The inputs are the readings of the clock with what `SDL_WaitEventTimeout`
returns. The event is a variable of the block of the loop. -/
def inner {W} (A : App W) (next : TS) :
    List (TS × Option Event) → Int → St W → Option (St W)
  | [], timeout, s => if !s.P.quit && decide (0 < timeout) then none else some s
  | (now, oe) :: ins, timeout, s =>
      if !s.P.quit && decide (0 < timeout) then
        let timeout := msec (sub next now)
        let s := { s with trace := s.trace ++ [.wait now (if timeout < 0 then 0 else timeout)] }
        let s := match oe with
          | some e => handle A s e
          | none => s
        inner A next ins timeout { s with P := { s.P with event := .dead } }
      else none

/-- src/amino_sdl.c:493-556: one turn of the loop, with the first reading of the clock
and the inputs of the loop inside. -/
def frame {W} (A : App W) (delta : TS) (now : TS) (ins : List (TS × Option Event)) (s : St W) :
    Option (St W) :=
  let P := { s.P with timeLast := s.P.timeNow, timeNow := now }
  let next := add now delta
  let x := A.display s.w P
  let s := ({ s with P := P } : St W).ask x.1 x.2
  let s : St W :=
    { s with P := { s.P with first := false }, trace := s.trace ++ [.display P x.2] }
  let s : St W := if s.P.update then
      { s with P := { s.P with update := false }, trace := s.trace ++ [.swap] }
    else s
  match inner A next ins 1 s with
  | none => none
  | some s =>
    let y := A.spnav s.w
    some { s with
      w := y.1
      P := { s.P with update := s.P.update || y.2 }
      trace := s.trace ++ [.spnav y.2] }

/-- Turns of the loop, as long as `quit` is not set. -/
def run {W} (A : App W) (delta : TS) : List (TS × List (TS × Option Event)) → St W → Option (St W)
  | [], s => some s
  | (now, ins) :: fs, s =>
      if s.P.quit then none
      else match frame A delta now ins s with
        | none => none
        | some s' => run A delta fs s'

/-- `aa_tm_sec2timespec` (include/amino/time.h:152-158). -/
noncomputable def sec2timespec (t : ℝ) : TS :=
  let trunc (x : ℝ) : Int := if 0 ≤ x then ⌊x⌋ else ⌈x⌉
  let sec := trunc t
  let nsec := trunc ((t - sec) * 1000000000)
  makeNorm sec nsec

/-- src/amino_sdl.c:483-491: the parameters before the first turn. -/
def params0 (t : TS) : Params := ⟨t, t, ⟨0, 0⟩, .uninit, true, false, true⟩

/-- src/amino_sdl.c:477-560 `aa_sdl_display_loop`, called at time `t` with bindings
made before: the turns so far. -/
noncomputable def displayLoop {W} (A : App W) (fps : ℝ) (t : TS) (w : W)
    (events : List (Nat × Fn)) (keys : List (Int × Fn))
    (fs : List (TS × List (TS × Option Event))) : Option (St W) :=
  run A (sec2timespec (1 / fps)) fs ⟨w, params0 t, events, keys, []⟩

/-- src/sdl_ui.c:99-107 `aa_sdl_ui_setup`, called once by `aa_sdl_init`
(src/amino_sdl.c:249-293). -/
def uiKeys : List (Int × Fn) := [(BACKQUOTE, .easter), (F11, .fullscreen)]
def uiEvents : List (Nat × Fn) := [(QUIT, .quit)]

end Verif.SdlLoop
