/-
Model of the DTLS anti-replay window.
Source: /repo/tls/record/src/rec_anti_replay.c (all functions), rec_anti_replay.h:41-44.
-/
namespace Verif.Tls.AntiReplay

/-- `RecSlidWindow`, /repo/tls/record/src/rec_anti_replay.h:41-44. -/
structure Window where
  /-- `uint64_t top` -/
  top : BitVec 64
  /-- `uint64_t window` -/
  window : BitVec 64
deriving DecidableEq, Repr

/-- `REC_SLID_WINDOW_SIZE`, /repo/tls/record/src/rec_anti_replay.c:21. -/
def windowSize : BitVec 64 := 64#64

/-- `RecAntiReplayReset`, /repo/tls/record/src/rec_anti_replay.c:23-27. -/
def reset : Window := { top := 0#64, window := 0#64 }

/-- `RecAntiReplayCheck`, /repo/tls/record/src/rec_anti_replay.c:29-42.
`true` means "replay, discard". The C shift `1 << bit` is only evaluated for `bit < 64`. -/
def check (w : Window) (seq : BitVec 64) : Bool :=
  if w.top < seq then false
  else
    let bit := w.top - seq
    if windowSize ≤ bit then true
    else (w.window &&& (1#64 <<< bit)) != 0#64

/-- `RecAntiReplayUpdate`, /repo/tls/record/src/rec_anti_replay.c:44-69
(64-bit wrap-around additions, as in C). -/
def update (w : Window) (seq : BitVec 64) : Window :=
  if seq + windowSize ≤ w.top then w
  else if seq ≤ w.top then
    let bit := w.top - seq
    { w with window := w.window ||| (1#64 <<< bit) }
  else
    let bit := seq - w.top
    if windowSize ≤ bit then { top := seq, window := 1#64 }
    else { top := seq, window := (w.window <<< bit) ||| 1#64 }

/-- One event on a read epoch, as driven by the DTLS record reader
(/repo/tls/record/src/rec_read.c:1231 check before decryption, :1374/:1380 update after successful
decryption, /repo/tls/record/src/record.c:752 reset). -/
inductive Event where
  /-- a record with this sequence number arrives; `auth` says whether decryption succeeds -/
  | record (seq : BitVec 64) (auth : Bool)
  /-- the window is reset (new epoch) -/
  | reset

/-- What the receiver does with an event: the new window and whether the record was accepted.
/repo/tls/record/src/rec_read.c:1231 and :1374-1380 (only the anti-replay part of the read path). -/
def step (w : Window) : Event → Window × Bool
  | .record seq auth =>
    if check w seq then (w, false)
    else if auth then (update w seq, true)
    else (w, false)
  | .reset => (AntiReplay.reset, false)

/-- Window after a history of events, oldest first. -/
def run (w : Window) : List Event → Window
  | [] => w
  | e :: es => run (step w e).1 es

end Verif.Tls.AntiReplay
