import Verif.Common.HeapList

/-!
# Message bus: topics, watch groups and threads

`lib/msgbus/messagebus.c` as a machine in which any number of threads run `messagebus_topic_publish`,
`messagebus_topic_read`, `messagebus_topic_wait`, `messagebus_watchgroup_watch` and
`messagebus_watchgroup_wait` on any number of topics and groups. One step is one lock operation, one
condition variable operation, one copied byte, or one access to a field.

Locks are mutual exclusion locks; a condition variable wait releases its lock and sleeps atomically,
and a broadcast makes all sleepers compete for the lock again (ChibiOS semantics, no spurious wakeups).
Each topic and each group has its own lock and condition variable. `stats.messages` is an unbounded
counter here (an `int` in C). The watcher list is a list of groups (the heap links of the sequential
list are in `Bus`).
-/

namespace Verif.MsgBus.Conc

open HeapList

abbrev Byte := BitVec 8

/-- `messagebus_topic_t`, messagebus.h:16-27. -/
structure Topic where
  buf : List Byte
  published : Bool
  messages : Nat
  watchers : List Nat
  lock : Option Nat

/-- `messagebus_watchgroup_t`, messagebus.h:38-42; `published_topic` is `none` until first set (it is
not initialised by `messagebus_watchgroup_init`, messagebus.c:136-140). -/
structure Group where
  published : Option Nat
  lock : Option Nat

/-- Ghost log entry: a completed operation on a topic. -/
inductive Entry where
  | pub (thread : Nat) (m : List Byte)
  | rd (thread : Nat) (n : Nat) (r : Option (List Byte))
  | wt (thread : Nat) (n : Nat) (r : List Byte)
deriving DecidableEq, Repr

/-- Shared memory; `log` (ghost) has the operations on each topic, newest first, in the order in which
they released the lock. -/
structure Shared where
  topics : Nat → Topic
  groups : Nat → Group
  log : Nat → List Entry

/-- Value returned by a call. -/
inductive Ret where
  | pub (ok : Bool)
  | rd (r : Option (List Byte))
  | wt (r : List Byte)
  | gw (r : Option Nat)
  | watch
deriving DecidableEq, Repr

/-- Program counter of a thread with the local variables; the numbers are lines of messagebus.c. -/
inductive Pc where
  | idle
  | ret (r : Ret)
  | pubCheck (t : Nat) (m : List Byte)                 -- 87
  | pubLock (t : Nat) (m : List Byte)                  -- 91
  | pubCopy (t : Nat) (m : List Byte) (k : Nat)        -- 93, k bytes copied
  | pubFlag (t : Nat) (m : List Byte)                  -- 94
  | pubStat (t : Nat) (m : List Byte)                  -- 95
  | pubBcast (t : Nat) (m : List Byte)                 -- 96
  | pubNext (t : Nat) (m : List Byte) (ws : List Nat)  -- 99-100, ws watchers left
  | pubSet (t : Nat) (m : List Byte) (g : Nat) (ws : List Nat)    -- 101
  | pubGBcast (t : Nat) (m : List Byte) (g : Nat) (ws : List Nat) -- 102
  | pubGRel (t : Nat) (m : List Byte) (g : Nat) (ws : List Nat)   -- 103
  | pubRel (t : Nat) (m : List Byte)                   -- 106
  | rdLock (t : Nat) (n : Nat)                         -- 114
  | rdCheck (t : Nat) (n : Nat)                        -- 116
  | rdCopy (t : Nat) (n : Nat) (out : List Byte)       -- 118
  | rdRel (t : Nat) (n : Nat) (r : Option (List Byte)) -- 121
  | wtLock (t : Nat) (n : Nat)                         -- 128
  | wtWait (t : Nat) (n : Nat)                         -- 129
  | wtSleep (t : Nat) (n : Nat)                        -- 129, asleep
  | wtWoken (t : Nat) (n : Nat)                        -- 129, taking the lock again
  | wtCopy (t : Nat) (n : Nat) (out : List Byte)       -- 131
  | wtRel (t : Nat) (n : Nat) (out : List Byte)        -- 133
  | gwLock (g : Nat)                                   -- 162
  | gwWait (g : Nat)                                   -- 163
  | gwSleep (g : Nat)                                  -- 163, asleep
  | gwWoken (g : Nat)                                  -- 163, taking the lock again
  | gwRead (g : Nat)                                   -- 165
  | gwRel (g : Nat) (r : Option Nat)                   -- 167
  | wgLockT (g t : Nat)                                -- 146
  | wgLockG (g t : Nat)                                -- 147
  | wgLink (g t : Nat)                                 -- 149-152
  | wgRelG (g t : Nat)                                 -- 154
  | wgRelT (g t : Nat)                                 -- 155
deriving DecidableEq, Repr

/-- What the scheduler asks of a thread: start a call, return from one, or make the next step. -/
inductive Act where
  | publish (t : Nat) (m : List Byte)
  | read (t : Nat) (n : Nat)
  | wait (t : Nat) (n : Nat)
  | gwait (g : Nat)
  | watch (g t : Nat)
  | leave
  | run
deriving DecidableEq, Repr

/-- A condition variable to broadcast. -/
inductive Wake where
  | none
  | topic (t : Nat)
  | group (g : Nat)
deriving DecidableEq, Repr

/-- Outcome of a step: not possible now, undefined behaviour (access outside the buffer, releasing a
lock that is not held, taking a lock twice), or done. -/
inductive Res where
  | blocked
  | ub
  | ok (sh : Shared) (p : Pc) (w : Wake)

def lockT (sh : Shared) (i t : Nat) (p : Pc) : Res :=
  match (sh.topics t).lock with
  | none => .ok { sh with topics := upd sh.topics t { sh.topics t with lock := some i } } p .none
  | some j => if j = i then .ub else .blocked

def lockG (sh : Shared) (i g : Nat) (p : Pc) : Res :=
  match (sh.groups g).lock with
  | none => .ok { sh with groups := upd sh.groups g { sh.groups g with lock := some i } } p .none
  | some j => if j = i then .ub else .blocked

/-- Release of the topic lock, with the ghost log entries to add. -/
def unlockT (sh : Shared) (i t : Nat) (es : List Entry) (p : Pc) : Res :=
  if (sh.topics t).lock = some i then
    .ok { sh with topics := upd sh.topics t { sh.topics t with lock := none },
                  log := upd sh.log t (es ++ sh.log t) } p .none
  else .ub

def unlockG (sh : Shared) (i g : Nat) (p : Pc) : Res :=
  if (sh.groups g).lock = some i then
    .ok { sh with groups := upd sh.groups g { sh.groups g with lock := none } } p .none
  else .ub

def setT (sh : Shared) (t : Nat) (x : Topic) : Shared := { sh with topics := upd sh.topics t x }

/-- One step of thread `i` at `p`. -/
def local_ (sh : Shared) (i : Nat) : Pc → Act → Res
  | .idle, .publish t m => .ok sh (.pubCheck t m) .none
  | .idle, .read t n => .ok sh (.rdLock t n) .none
  | .idle, .wait t n => .ok sh (.wtLock t n) .none
  | .idle, .gwait g => .ok sh (.gwLock g) .none
  | .idle, .watch g t => .ok sh (.wgLockT g t) .none
  | .ret _, .leave => .ok sh .idle .none
  | .pubCheck t m, .run =>
    if (sh.topics t).buf.length < m.length then .ok sh (.ret (.pub false)) .none
    else .ok sh (.pubLock t m) .none
  | .pubLock t m, .run => lockT sh i t (.pubCopy t m 0)
  | .pubCopy t m k, .run =>
    match m[k]? with
    | none => .ok sh (.pubFlag t m) .none
    | some b =>
      if k < (sh.topics t).buf.length then
        .ok (setT sh t { sh.topics t with buf := (sh.topics t).buf.set k b }) (.pubCopy t m (k + 1)) .none
      else .ub
  | .pubFlag t m, .run => .ok (setT sh t { sh.topics t with published := true }) (.pubStat t m) .none
  | .pubStat t m, .run =>
    .ok (setT sh t { sh.topics t with messages := (sh.topics t).messages + 1 }) (.pubBcast t m) .none
  | .pubBcast t m, .run => .ok sh (.pubNext t m (sh.topics t).watchers) (.topic t)
  | .pubNext t m [], .run => .ok sh (.pubRel t m) .none
  | .pubNext t m (g :: ws), .run => lockG sh i g (.pubSet t m g ws)
  | .pubSet t m g ws, .run =>
    .ok { sh with groups := upd sh.groups g { sh.groups g with published := some t } } (.pubGBcast t m g ws) .none
  | .pubGBcast t m g ws, .run => .ok sh (.pubGRel t m g ws) (.group g)
  | .pubGRel t m g ws, .run => unlockG sh i g (.pubNext t m ws)
  | .pubRel t m, .run => unlockT sh i t [.pub i m] (.ret (.pub true))
  | .rdLock t n, .run => lockT sh i t (.rdCheck t n)
  | .rdCheck t n, .run =>
    if (sh.topics t).published then .ok sh (.rdCopy t n []) .none else .ok sh (.rdRel t n none) .none
  | .rdCopy t n out, .run =>
    if out.length < n then
      match (sh.topics t).buf[out.length]? with
      | none => .ub
      | some b => .ok sh (.rdCopy t n (out ++ [b])) .none
    else .ok sh (.rdRel t n (some out)) .none
  | .rdRel t n r, .run => unlockT sh i t [.rd i n r] (.ret (.rd r))
  | .wtLock t n, .run => lockT sh i t (.wtWait t n)
  | .wtWait t n, .run => unlockT sh i t [] (.wtSleep t n)
  | .wtWoken t n, .run => lockT sh i t (.wtCopy t n [])
  | .wtCopy t n out, .run =>
    if out.length < n then
      match (sh.topics t).buf[out.length]? with
      | none => .ub
      | some b => .ok sh (.wtCopy t n (out ++ [b])) .none
    else .ok sh (.wtRel t n out) .none
  | .wtRel t n r, .run => unlockT sh i t [.wt i n r] (.ret (.wt r))
  | .gwLock g, .run => lockG sh i g (.gwWait g)
  | .gwWait g, .run => unlockG sh i g (.gwSleep g)
  | .gwWoken g, .run => lockG sh i g (.gwRead g)
  | .gwRead g, .run => .ok sh (.gwRel g (sh.groups g).published) .none
  | .gwRel g r, .run => unlockG sh i g (.ret (.gw r))
  | .wgLockT g t, .run => lockT sh i t (.wgLockG g t)
  | .wgLockG g t, .run => lockG sh i g (.wgLink g t)
  | .wgLink g t, .run =>
    .ok (setT sh t { sh.topics t with watchers := g :: (sh.topics t).watchers }) (.wgRelG g t) .none
  | .wgRelG g t, .run => unlockG sh i g (.wgRelT g t)
  | .wgRelT _ t, .run => unlockT sh i t [] (.ret .watch)
  | _, _ => .blocked

/-- Effect of a broadcast on another thread. -/
def wake (w : Wake) (p : Pc) : Pc :=
  match w, p with
  | .topic t, .wtSleep t' n => if t' = t then .wtWoken t' n else p
  | .group g, .gwSleep g' => if g' = g then .gwWoken g' else p
  | _, p => p

structure State where
  sh : Shared
  pc : Nat → Pc

inductive GRes where
  | blocked
  | ub
  | ok (s : State)

/-- One step of the whole system: thread `i` does `a`. -/
def step (s : State) (i : Nat) (a : Act) : GRes :=
  match local_ s.sh i (s.pc i) a with
  | .blocked => .blocked
  | .ub => .ub
  | .ok sh p w => .ok ⟨sh, fun j => if j = i then p else wake w (s.pc j)⟩

/-- Initial state: topics initialised with the given buffers, no watchers, all threads idle
(messagebus.c:23-30, 136-140). -/
def start (bufs : Nat → List Byte) : State :=
  ⟨⟨fun t => ⟨bufs t, false, 0, [], none⟩, fun _ => ⟨none, none⟩, fun _ => []⟩, fun _ => .idle⟩

/-- Reads of a topic ask for at most the size of its buffer (the code does not check, so this is an
obligation of the callers). -/
def ActOK (bufs : Nat → List Byte) : Act → Prop
  | .read t n => n ≤ (bufs t).length
  | .wait t n => n ≤ (bufs t).length
  | _ => True

/-- States reachable by any schedule. -/
inductive Reach (bufs : Nat → List Byte) : State → Prop
  | start : Reach bufs (start bufs)
  | step {s s' : State} {i : Nat} {a : Act} : Reach bufs s → ActOK bufs a → step s i a = .ok s' →
    Reach bufs s'

end Verif.MsgBus.Conc
