/-!
# LRU cache and anchor position cache

uwb-beacon-firmware/src/lru_cache.c and anchor_position_cache.c. The entry array is a heap: entries
are indices into it, `next` pointers are optional indices.
-/

namespace Verif.LruCache

/-- Failure of a C function: null (or otherwise invalid) pointer access, or no termination within
the given number of loop iterations. -/
inductive Err where
  | invalid
  | fuel
deriving DecidableEq, Repr

/-- `cache_t` (lru_cache.h:23-26) together with the entry array (`cache_entry_t`, :17-21). -/
structure Cache where
  next : Nat → Option Nat
  key : Nat → BitVec 32
  free : Option Nat
  used : Option Nat

/-- Assignment to a field of entry `e`. -/
def set {α : Type} (f : Nat → α) (e : Nat) (v : α) : Nat → α := fun x => if x = e then v else f x

/-- `cache_init`, lru_cache.c:4-16, on `n` entries whose previous contents are `c`. With `n = 0` the
last assignment is out of bounds. -/
def cacheInit (c : Cache) (n : Nat) : Except Err Cache :=
  if n = 0 then .error .invalid
  else .ok
    { c with
      next := set (fun i => if i < n then some (i + 1) else c.next i) (n - 1) none
      free := some 0
      used := none }

/-- The loop of lru_cache.c:31-34: advance to the last element. -/
def lastLoop (next : Nat → Option Nat) : Nat → Option Nat → Nat → Except Err (Option Nat × Nat)
  | 0, _, _ => .error .fuel
  | f + 1, prev, cur =>
    match next cur with
    | none => .ok (prev, cur)
    | some c => lastLoop next f (some cur) c

/-- `cache_entry_allocate`, lru_cache.c:18-48. Returns the entry. -/
def allocate (fuel : Nat) (c : Cache) (k : BitVec 32) : Except Err (Cache × Nat) := do
  let (c, ret) ←
    match c.free with
    | some e => pure ({ c with free := c.next e }, e)
    | none =>
      match c.used with
      | none => .error .invalid
      | some u => do
        let (prev, cur) ← lastLoop c.next fuel none u
        match prev with
        | some p => pure ({ c with next := set c.next p none }, cur)
        | none => pure (c, cur)
  pure ({ c with next := set c.next ret c.used, used := some ret, key := set c.key ret k }, ret)

/-- The loop of lru_cache.c:56-59: search the key. -/
def findLoop (next : Nat → Option Nat) (key : Nat → BitVec 32) (k : BitVec 32) :
    Nat → Option Nat → Option Nat → Except Err (Option Nat × Option Nat)
  | _, prev, none => .ok (prev, none)
  | 0, _, some _ => .error .fuel
  | f + 1, prev, some c =>
    if key c = k then .ok (prev, some c) else findLoop next key k f (some c) (next c)

/-- `cache_entry_get`, lru_cache.c:50-69. -/
def get (fuel : Nat) (c : Cache) (k : BitVec 32) : Except Err (Cache × Option Nat) := do
  let (prev, cur) ← findLoop c.next c.key k fuel none c.used
  match cur, prev with
  | some e, some p =>
    let next := set c.next p (c.next e)
    pure ({ c with next := set next e c.used, used := some e }, cur)
  | _, _ => pure (c, cur)

/-! ## anchor_position_cache.c -/

/-- `CACHE_ENTRIES`, anchor_position_cache.c:7. -/
def cacheEntries : Nat := 5

/-- The cache and the message buffers its entries point to (`anchor_cache_init`, :79-86, lets entry
`i` point to buffer `i`). `Pos` is the payload of a message. -/
structure Anchors (Pos : Type) where
  cache : Cache
  content : Nat → Option Pos

/-- `anchor_cache_init`, anchor_position_cache.c:79-86; the buffers are zero-initialised statics,
represented by `none`. -/
def anchorsInit (Pos : Type) : Except Err (Anchors Pos) := do
  let c ← cacheInit ⟨fun _ => none, fun _ => 0, none, none⟩ cacheEntries
  pure ⟨c, fun _ => none⟩

/-- One message handled by `anchor_cache_thd`, anchor_position_cache.c:36-51 (under the semaphore). -/
def handleMsg {Pos : Type} (a : Anchors Pos) (addr : BitVec 16) (pos : Pos) :
    Except Err (Anchors Pos) := do
  let (c, entry) ← get cacheEntries a.cache (addr.setWidth 32)
  let (c, e) ←
    match entry with
    | none => allocate cacheEntries c (addr.setWidth 32)
    | some e => pure (c, e)
  pure ⟨c, set a.content e (some pos)⟩

/-- `anchor_position_cache_get`, anchor_position_cache.c:64-77: `none` is NULL, otherwise the content
the returned pointer refers to at that moment. -/
def lookup {Pos : Type} (a : Anchors Pos) (addr : BitVec 16) :
    Except Err (Anchors Pos × Option (Option Pos)) := do
  let (c, result) ← get cacheEntries a.cache (addr.setWidth 32)
  pure ({ a with cache := c }, result.map a.content)

end Verif.LruCache
