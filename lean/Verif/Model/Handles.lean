import Verif.Model.PubSubThreads

/-!
# Subscriptions in the hands of users (engine/src/pubsub/mod.rs 8-41)

`subscribe` and `get` answer with a `Weak<Subscription>`. Users can upgrade it to a pointer that keeps the
subscription alive, and from that get clones of the two ends of its channel. The manager owns one pointer to each
subscription in its maps. Modelled of `alloc::sync::Arc`: the subscription lives as long as there is a pointer to
it; `upgrade` succeeds while it lives. Modelled of `futures_intrusive::channel::shared`: how many senders and
receivers there are, that the channel is closed by `close` or when the last sender or the last receiver is dropped,
and that it is never opened again. Not modelled: the messages, and the futures that wait for them.
-/

namespace Hop

/-- What the pointers to one `Subscription` (engine/src/pubsub/mod.rs 8-12) and the ends of its channel share: the
number of pointers, the numbers of senders and receivers (the subscription's own included), and whether the channel
is closed. -/
structure SubCell where
  strong : Nat
  senders : Nat
  receivers : Nat
  closed : Bool
deriving DecidableEq

namespace SubCell

/-- Not made yet. See engine/src/pubsub/mod.rs 8-12. -/
def unmade : SubCell := { strong := 0, senders := 0, receivers := 0, closed := false }

/-- `Arc::new(Subscription::new())`, engine/src/pubsub/manager.rs 34 and engine/src/pubsub/mod.rs 15-17 and 32-38:
the subscription owns one sender and one receiver of a new channel. -/
def new : SubCell := { strong := 1, senders := 1, receivers := 1, closed := false }

/-- `Subscription::close`, engine/src/pubsub/mod.rs 19-21; `close` of a sender or a receiver does the same. -/
def close (c : SubCell) : SubCell := { c with closed := true }

/-- A sender is dropped. The last one closes the channel. The sender of engine/src/pubsub/mod.rs 27-29 or the field
in line 11. -/
def dropSender (c : SubCell) : SubCell := { c with senders := c.senders - 1, closed := c.closed || c.senders == 1 }

/-- A receiver is dropped. The last one closes the channel. The receiver of engine/src/pubsub/mod.rs 23-25 or the
field in line 10. -/
def dropReceiver (c : SubCell) : SubCell :=
  { c with receivers := c.receivers - 1, closed := c.closed || c.receivers == 1 }

/-- A pointer is dropped. With the last one the subscription is, and with it first its receiver and then its sender
(the order of the fields, engine/src/pubsub/mod.rs 10-11). -/
def dropPointer (c : SubCell) : SubCell :=
  let c' := { c with strong := c.strong - 1 }
  if c.strong = 1 then c'.dropReceiver.dropSender else c'

/-- `Weak::upgrade`: a pointer more, if the subscription lives. The `Weak` returned in engine/src/pubsub/manager.rs
21 and 49. -/
def upgrade (c : SubCell) : Option SubCell := if c.strong = 0 then none else some { c with strong := c.strong + 1 }

end SubCell

/-- What a step of a call does to a subscription. engine/src/pubsub/manager.rs 28-90. -/
inductive SubEffect where
  | nothing
  /-- Makes it and puts the only pointer to it into the session's map (engine/src/pubsub/manager.rs 34-37). -/
  | makes (x : Nat)
  /-- Removes the pointer from the session's map and drops it (engine/src/pubsub/manager.rs 69-70). -/
  | drops (x : Nat)
  /-- Closes the channel and drops the pointer (engine/src/pubsub/manager.rs 85-87). -/
  | closes (x : Nat)
deriving DecidableEq

/-- What the next step of a thread does to a subscription; engine/src/pubsub/manager.rs 28-41, 65-70 and 80-90. The
pointers in a map that `remove_session` has taken out (line 83) belong to the thread until it drops them. -/
def SubThread.effect (free : UInt32 → Bool) (m : PubSub) : SubThread → SubEffect
  | .subscribe k s =>
    if free s then
      match (m.subscribeSession k s).1 with
      | some x => .makes x
      | none => .nothing
    else .nothing
  | .unsubscribing k s _ =>
    if free s then
      match m.get k s with
      | some x => .drops x
      | none => .nothing
    else .nothing
  | .closing (x :: _) => .closes x
  | _ => .nothing

/-- What users hold of one subscription. What engine/src/pubsub/manager.rs 17-52 and engine/src/pubsub/mod.rs 23-29
return. -/
structure Holding where
  pointers : Nat
  senders : Nat
  receivers : Nat
deriving DecidableEq

/-- The manager with the threads in its functions, the subscriptions, and what users hold of them.
engine/src/pubsub/manager.rs 6-13 and engine/src/pubsub/mod.rs 8-12. -/
structure SubWorld where
  pool : SubPool
  cells : Nat → SubCell
  held : Nat → Holding

/-- Replace what is known of one subscription. See engine/src/pubsub/mod.rs 8-12. -/
def SubWorld.put (w : SubWorld) (x : Nat) (c : SubCell) (h : Holding) : SubWorld :=
  { w with cells := fun y => if y = x then c else w.cells y, held := fun y => if y = x then h else w.held y }

/-- The next thing that happens. engine/src/pubsub/manager.rs 17-90 and engine/src/pubsub/mod.rs 15-29. -/
inductive SubStep where
  /-- Thread `i` makes the next step of its call of the manager. -/
  | call (i : Nat)
  /-- A user upgrades a `Weak` pointer to subscription `x`. -/
  | upgrade (x : Nat)
  /-- A user clones a pointer to subscription `x`. -/
  | clonePointer (x : Nat)
  | dropPointer (x : Nat)
  /-- A user calls `sender` of subscription `x`, engine/src/pubsub/mod.rs 27-29. -/
  | sender (x : Nat)
  | cloneSender (x : Nat)
  | dropSender (x : Nat)
  /-- A user calls `receiver` of subscription `x`, engine/src/pubsub/mod.rs 23-25. -/
  | receiver (x : Nat)
  | cloneReceiver (x : Nat)
  | dropReceiver (x : Nat)
  /-- A user calls `close` of the subscription, or of a sender or a receiver of it. -/
  | close (x : Nat)
deriving DecidableEq

namespace SubWorld

/-- What one step does. Users can only use what they hold; a `Weak` pointer to any subscription may be upgraded.
engine/src/pubsub/manager.rs 17-90 and engine/src/pubsub/mod.rs 15-29. -/
def step (shard : UInt32 → Nat) (w : SubWorld) : SubStep → SubWorld
  | .call i =>
    let w' := { w with pool := w.pool.stepAt shard i }
    match w.pool.threads[i]? with
    | none => w'
    | some t =>
      match t.effect (w.pool.free shard) w.pool.mgr with
      | .nothing => w'
      | .makes x => w'.put x .new (w.held x)
      | .drops x => w'.put x (w.cells x).dropPointer (w.held x)
      | .closes x => w'.put x (w.cells x).close.dropPointer (w.held x)
  | .upgrade x =>
    match (w.cells x).upgrade with
    | none => w
    | some c => w.put x c { w.held x with pointers := (w.held x).pointers + 1 }
  | .clonePointer x =>
    if (w.held x).pointers = 0 then w
    else w.put x { w.cells x with strong := (w.cells x).strong + 1 } { w.held x with pointers := (w.held x).pointers + 1 }
  | .dropPointer x =>
    if (w.held x).pointers = 0 then w
    else w.put x (w.cells x).dropPointer { w.held x with pointers := (w.held x).pointers - 1 }
  | .sender x =>
    if (w.held x).pointers = 0 then w
    else w.put x { w.cells x with senders := (w.cells x).senders + 1 } { w.held x with senders := (w.held x).senders + 1 }
  | .cloneSender x =>
    if (w.held x).senders = 0 then w
    else w.put x { w.cells x with senders := (w.cells x).senders + 1 } { w.held x with senders := (w.held x).senders + 1 }
  | .dropSender x =>
    if (w.held x).senders = 0 then w
    else w.put x (w.cells x).dropSender { w.held x with senders := (w.held x).senders - 1 }
  | .receiver x =>
    if (w.held x).pointers = 0 then w
    else w.put x { w.cells x with receivers := (w.cells x).receivers + 1 }
      { w.held x with receivers := (w.held x).receivers + 1 }
  | .cloneReceiver x =>
    if (w.held x).receivers = 0 then w
    else w.put x { w.cells x with receivers := (w.cells x).receivers + 1 }
      { w.held x with receivers := (w.held x).receivers + 1 }
  | .dropReceiver x =>
    if (w.held x).receivers = 0 then w
    else w.put x (w.cells x).dropReceiver { w.held x with receivers := (w.held x).receivers - 1 }
  | .close x =>
    if w.held x = ⟨0, 0, 0⟩ then w else w.put x (w.cells x).close (w.held x)

/-- Everything that happens, in order. engine/src/pubsub/manager.rs 17-90 and engine/src/pubsub/mod.rs 15-29. -/
def exec (shard : UInt32 → Nat) (w : SubWorld) (run : List SubStep) : SubWorld := run.foldl (step shard) w

/-- A user who upgrades a `Weak` pointer to the subscription is given a pointer. The `Weak` returned in
engine/src/pubsub/manager.rs 21 and 49. -/
def upgrades (w : SubWorld) (x : Nat) : Bool := (w.cells x).upgrade.isSome

/-- Sending over the channel of the subscription fails, and receiving from it ends. As tested in
engine/src/pubsub/mod.rs 49-54. -/
def closed (w : SubWorld) (x : Nat) : Bool := (w.cells x).closed

end SubWorld

end Hop
