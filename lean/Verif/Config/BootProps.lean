import Verif.Config.Boot
import Verif.Config.Props

/-!
# The configuration files of the robots: properties

C102 for the actual files and the actual order of the calls: the other parameters are declared before the load. The
statements are about the three files of the repository, hence checked by evaluation; what is evaluated is the condition
of the general theorem about loading (`read_place`), not the load.
-/

namespace Verif.Config

open Verif.Param
open HeapList

/-! ## Checker of the condition for a load -/

def fits? : Scalar → Bool
  | .int i => decide (-2147483648 ≤ i) && decide (i < 2147483648)
  | .str s => decide (s.length < 16)
  | .other => false
  | _ => true

theorem fits?_spec {v : Scalar} (h : fits? v = true) : v.fits := by
  cases v <;> simp_all [fits?, Scalar.fits]

def chain? (parent : Nat → Option Nat) : Nat → Option Nat → Bool
  | _, none => true
  | 0, some _ => false
  | f + 1, some n => chain? parent f (parent n)

theorem chain?_spec {parent : Nat → Option Nat} : ∀ {f : Nat} {p : Option Nat}, chain? parent f p = true →
    ∃ ch, IsList parent p ch ∧ ch.length ≤ f
  | _, none, _ => ⟨[], rfl, Nat.zero_le _⟩
  | 0, some _, h => by simp [chain?] at h
  | f + 1, some n, h => by
    obtain ⟨ch, h1, h2⟩ := chain?_spec (f := f) (p := parent n) h
    exact ⟨n :: ch, ⟨rfl, h1⟩, by simp only [List.length_cons]; omega⟩

def holds? : Val → AVal → Bool
  | .scalar _, .scalar _ => true
  | .integer _, .integer _ => true
  | .boolean _, .boolean _ => true
  | .string buf _, .string s => decide (s.length < buf.length)
  | _, _ => false

theorem holds?_spec {x : Val} {w : AVal} (h : holds? x w = true) : Holds x w := by
  cases x <;> cases w <;> simp_all [holds?, Holds]

/-- Can `v` be stored in the parameter with identifier `k`? -/
def leaf? (fuel : Nat) (h : Heap) (n : Nat) (k : Str) (v : Scalar) : Option (Nat × AVal) :=
  match parFindLoop fuel h k.length (some n) k with
  | .ok (some p) =>
    match v.value with
    | some w => if (fits? v && chain? h.parent fuel (some (h.parNs p)) && (!h.changed p || h.defined p) && holds? (h.val p) w) = true then
        some (p, w) else none
    | none => none
  | _ => none

def place? (fuel : Nat) (h : Heap) : Nat → Dict → Option (List (Nat × AVal))
  | _, .nil => some []
  | n, .leaf k v r =>
    match leaf? fuel h n k v with
    | none => none
    | some t =>
      match place? fuel h n r with
      | none => none
      | some ts => some (t :: ts)
  | n, .sub k d r =>
    match nsFindLoop fuel h k.length (some n) k with
    | .ok (some n') =>
      match place? fuel h n' d with
      | none => none
      | some ts =>
        match place? fuel h n r with
        | none => none
        | some ts' => some (ts ++ ts')
    | _ => none

theorem place?_spec {fuel : Nat} {h : Heap} : ∀ {d : Dict} {n : Nat} {ts : List (Nat × AVal)}, place? fuel h n d = some ts → Place fuel h n d ts
  | .nil, _, ts, hp => by
    simp only [place?, Option.some.injEq] at hp
    subst hp
    exact .nil _
  | .leaf k v r, n, ts, hp => by
    simp only [place?] at hp
    split at hp
    · cases hp
    · rename_i t ht
      split at hp
      · cases hp
      · rename_i ts' hts
        injection hp with hp
        subst hp
        unfold leaf? at ht
        split at ht
        · rename_i p hf
          split at ht
          · rename_i w hw
            split at ht
            · rename_i hc
              injection ht with ht
              subst ht
              simp only [Bool.and_eq_true, Bool.or_eq_true, Bool.not_eq_true'] at hc
              obtain ⟨⟨⟨c1, c2⟩, c3⟩, c4⟩ := hc
              refine .leaf hf hw (fits?_spec c1) ⟨chain?_spec c2, fun hch => ?_⟩ (holds?_spec c4) (place?_spec hts)
              rcases c3 with c3 | c3
              · rw [c3] at hch; cases hch
              · exact c3
            · cases ht
          · cases ht
        · cases ht
  | .sub k d r, n, ts, hp => by
    simp only [place?] at hp
    split at hp
    · rename_i n' hf
      split at hp
      · cases hp
      · rename_i ts1 h1
        split at hp
        · cases hp
        · rename_i ts2 h2
          injection hp with hp
          subst hp
          exact .sub hf (place?_spec h1) (place?_spec h2)
    · cases hp

/-- The values of a file with their keys. -/
def leaves : Dict → List (Path × Scalar)
  | .nil => []
  | .leaf k v r => ([k], v) :: leaves r
  | .sub k d r => (leaves d).map (fun x => (k :: x.1, x.2)) ++ leaves r

theorem mem_leaves {d : Dict} {q : Path} {v : Scalar} (h : Leaf d q v) : (q, v) ∈ leaves d := by
  induction h with
  | here k v r => simp [leaves]
  | skipLeaf _ ih => simp [leaves, ih]
  | skipSub _ ih => simp [leaves, ih]
  | deep _ ih => simp only [leaves, List.mem_append, List.mem_map]; exact .inl ⟨_, ih, rfl⟩

/-- Keys as one path. -/
def join : Path → Str
  | [] => []
  | [k] => k
  | k :: q => k ++ slash :: join q

/-- All memory is 0 before (static objects, `memset`). -/
def zero : Heap := ⟨fun _ => [], fun _ => 0, fun _ => none, fun _ => none, fun _ => none, fun _ => none, fun _ => [], fun _ => 0, fun _ => none,
  fun _ => false, fun _ => false, fun _ => .scalar 0⟩

/-- Enough for all loops of the start. -/
def fuelOf : Nat := 64

/-- `config["master"]`, config_to_c.py:47. -/
def section? (k : Str) : Dict → Option Dict
  | .nil => none
  | .leaf k' _ r => if k' = k then none else section? k r
  | .sub k' d r => if k' = k then some d else section? k r

def masterOf (d : Dict) : Dict := (section? masterName d).getD .nil

/-- The three files. -/
def files : List Dict := [orderFile, chaosFile, simulationFile]

/-- The generated program, for the first file. -/
def prog : Prog :=
  match generate (masterOf orderFile) with
  | .ok p => p
  | .error _ => ⟨[], []⟩

/-- The operations of `config_master_init`, newest first. -/
def masterOps : List Op :=
  [.declPar 67 64 [97, 110, 103, 108, 101, 95, 115, 116, 97, 114, 116] (.scalar 0 none),
   .declPar 66 64 [97, 110, 103, 108, 101] (.scalar 0 none),
   .declPar 65 64 [100, 105, 115, 116, 97, 110, 99, 101] (.scalar 0 none),
   .declNs 64 (some 38) [119, 105, 110, 100, 111, 119, 115],
   .declPar 62 59 [102, 97, 115, 116] (.scalar 0 none),
   .declPar 61 59 [115, 108, 111, 119] (.scalar 0 none),
   .declPar 60 59 [105, 110, 105, 116] (.scalar 0 none),
   .declNs 59 (some 52) [97, 99, 99, 101, 108, 101, 114, 97, 116, 105, 111, 110],
   .declPar 57 54 [102, 97, 115, 116] (.scalar 0 none),
   .declPar 56 54 [115, 108, 111, 119] (.scalar 0 none),
   .declPar 55 54 [105, 110, 105, 116] (.scalar 0 none),
   .declNs 54 (some 52) [115, 112, 101, 101, 100],
   .declNs 52 (some 38) [100, 105, 115, 116, 97, 110, 99, 101],
   .declPar 50 47 [102, 97, 115, 116] (.scalar 0 none),
   .declPar 49 47 [115, 108, 111, 119] (.scalar 0 none),
   .declPar 48 47 [105, 110, 105, 116] (.scalar 0 none),
   .declNs 47 (some 40) [97, 99, 99, 101, 108, 101, 114, 97, 116, 105, 111, 110],
   .declPar 45 42 [102, 97, 115, 116] (.scalar 0 none),
   .declPar 44 42 [115, 108, 111, 119] (.scalar 0 none),
   .declPar 43 42 [105, 110, 105, 116] (.scalar 0 none),
   .declNs 42 (some 40) [115, 112, 101, 101, 100],
   .declNs 40 (some 38) [97, 110, 103, 108, 101],
   .declNs 38 (some 22) [116, 114, 97, 106, 101, 99, 116, 111, 114, 105, 101, 115],
   .declPar 36 32 [105, 95, 108, 105, 109, 105, 116] (.scalar 0 none),
   .declPar 35 32 [107, 100] (.scalar 0 none),
   .declPar 34 32 [107, 105] (.scalar 0 none),
   .declPar 33 32 [107, 112] (.scalar 0 none),
   .declNs 32 (some 24) [100, 105, 115, 116, 97, 110, 99, 101],
   .declPar 30 26 [105, 95, 108, 105, 109, 105, 116] (.scalar 0 none),
   .declPar 29 26 [107, 100] (.scalar 0 none),
   .declPar 28 26 [107, 105] (.scalar 0 none),
   .declPar 27 26 [107, 112] (.scalar 0 none),
   .declNs 26 (some 24) [97, 110, 103, 108, 101],
   .declNs 24 (some 22) [99, 111, 110, 116, 114, 111, 108],
   .declNs 22 (some 3) [97, 118, 101, 114, 115, 105, 118, 101],
   .declPar 20 18 [97, 110, 103, 117, 108, 97, 114, 95, 111, 102, 102, 115, 101, 116] (.scalar 0 none),
   .declPar 19 18 [114, 101, 102, 108, 101, 99, 116, 111, 114, 95, 114, 97, 100, 105, 117, 115] (.scalar 0 none),
   .declNs 18 (some 3) [98, 101, 97, 99, 111, 110],
   .declPar 16 12 [114, 105, 103, 104, 116, 95, 119, 104, 101, 101, 108, 95, 99, 111, 114, 114, 101, 99, 116, 105, 111, 110, 95, 102, 97, 99, 116, 111, 114] (.scalar 0 none),
   .declPar 15 12 [108, 101, 102, 116, 95, 119, 104, 101, 101, 108, 95, 99, 111, 114, 114, 101, 99, 116, 105, 111, 110, 95, 102, 97, 99, 116, 111, 114] (.scalar 0 none),
   .declPar 14 12 [101, 120, 116, 101, 114, 110, 97, 108, 95, 116, 114, 97, 99, 107, 95, 109, 109] (.scalar 0 none),
   .declPar 13 12 [101, 120, 116, 101, 114, 110, 97, 108, 95, 101, 110, 99, 111, 100, 101, 114, 95, 116, 105, 99, 107, 115, 95, 112, 101, 114, 95, 109, 109] (.scalar 0 none),
   .declNs 12 (some 3) [111, 100, 111, 109, 101, 116, 114, 121],
   .declPar 10 3 [99, 97, 108, 105, 98, 114, 97, 116, 105, 111, 110, 95, 100, 105, 114, 101, 99, 116, 105, 111, 110] (.integer 0 none),
   .declPar 9 3 [111, 112, 112, 111, 110, 101, 110, 116, 95, 115, 105, 122, 101, 95, 120, 95, 109, 109, 95, 100, 101, 102, 97, 117, 108, 116] (.integer 0 none),
   .declPar 8 3 [114, 111, 98, 111, 116, 95, 97, 108, 105, 103, 110, 109, 101, 110, 116, 95, 108, 101, 110, 103, 116, 104, 95, 109, 109] (.integer 0 none),
   .declPar 7 3 [114, 111, 98, 111, 116, 95, 115, 105, 122, 101, 95, 120, 95, 109, 109] (.integer 0 none),
   .declPar 6 3 [101, 108, 101, 99, 116, 114, 111, 110, 95, 117, 119, 98, 95, 109, 97, 99] (.integer 0 none),
   .declPar 5 3 [99, 111, 110, 116, 114, 111, 108, 95, 112, 97, 110, 101, 108, 95, 97, 99, 116, 105, 118, 101, 95, 104, 105, 103, 104] (.boolean false none),
   .declPar 4 3 [105, 115, 95, 109, 97, 105, 110, 95, 114, 111, 98, 111, 116] (.boolean false none),
   .declNs 3 (some 1) [109, 97, 115, 116, 101, 114],
   .declNs 1 none []]

/-- The heap after the start; the numbers are the cells of the objects involved. -/
def bootResult : Except Err Heap := do
  let h ← run fuelOf zero masterOps
  let h := copyNs h 1 68
  let h := copyNs h 3 69
  let h := nsDeclare h 70 (some 68) (str "actuator")
  declareAll fuelOf h (bootDecls 68 70 71)

def bootHeap : Heap :=
  match bootResult with
  | .ok h => h
  | .error _ => zero

/-- Everything to be known about a file. -/
def file? (d : Dict) : Bool :=
  match place? fuelOf bootHeap 68 d with
  | none => false
  | some ts =>
    decide (ts.map (·.1)).Nodup &&
    (leaves d).all (fun x =>
      match parFind fuelOf bootHeap 68 (join x.1), x.2.value with
      | .ok (some p), some w => parFind fuelOf bootHeap 68 (slash :: join x.1) == .ok (some p) && ts.contains (p, w)
      | _, _ => false)

/-! ## The start -/

/-- C101: the three files give the same program, and it compiles. -/
theorem robots_build : generateAll (files.map masterOf) none = .ok (some prog) ∧ prog.compiles = true :=
  ⟨by decide +kernel, by decide +kernel⟩

theorem prog_ops : prog.ops = masterOps := by decide +kernel

theorem prog_cells : prog.global = 68 ∧ prog.masterCfg = 69 ∧ prog.actuator = 70 ∧ prog.cell [configName, nsName] = 1 ∧
    prog.cell [configName, masterName, nsName] = 3 := by decide +kernel

theorem boot_result : bootResult = .ok bootHeap := by
  have h : bootResult.isOk = true := by decide +kernel
  unfold bootHeap
  cases hb : bootResult with
  | ok h => rfl
  | error e => rw [hb] at h; cases h

/-- C102: no assertion fails during the start. -/
theorem robots_boot : boot fuelOf zero prog = .ok bootHeap := by
  rw [← boot_result]
  obtain ⟨c1, c2, c3, c4, c5⟩ := prog_cells
  unfold boot configInit bootResult
  rw [prog_ops, c1, c2, c3, c4, c5]
  cases run fuelOf zero masterOps <;> rfl

theorem files_ok : ∀ d ∈ files, file? d = true := by
  rw [← List.all_eq_true]
  decide +kernel

def small? (d : Dict) : Bool :=
  match pack d with
  | .ok b => decide (b.length < 2000)
  | .error _ => false

theorem files_small : ∀ d ∈ files, small? d = true := by
  rw [← List.all_eq_true]
  decide +kernel

/-- Everything about one file, for the theorems below. -/
theorem file_loaded {d : Dict} (hd : d ∈ files) {W : Nat} {en : Msgpack.Env} (hW : 5000 ≤ W) (hen : ∀ k, en.alloc k = true) :
    ∃ doc s ts, pack d = .ok doc ∧ load W fuelOf en bootHeap prog doc = .ok (true, s) ∧ s.errs = 0 ∧ Place fuelOf bootHeap 68 d ts ∧
      LoadedAll bootHeap s.heap ts ∧ ∀ q v, Leaf d q v → ∃ p w, parFind fuelOf bootHeap 68 (join q) = .ok (some p) ∧
        parFind fuelOf bootHeap 68 (slash :: join q) = .ok (some p) ∧ v.value = some w ∧ (p, w) ∈ ts := by
  have h1 := files_ok d hd
  have h2 := files_small d hd
  unfold file? at h1
  unfold small? at h2
  split at h2
  · rename_i doc hdoc
    split at h1
    · cases h1
    · rename_i ts hts
      simp only [Bool.and_eq_true, decide_eq_true_eq] at h1 h2
      obtain ⟨h1, h3⟩ := h1
      obtain ⟨s, e1, e2, e3⟩ := read_place hen (place?_spec hts) h1 hdoc (by omega) (W := W) (by omega)
      refine ⟨doc, s, ts, hdoc, ?_, e2, place?_spec hts, e3, ?_⟩
      · unfold load; rw [prog_cells.1]; exact e1
      · intro q v hv
        have h4 := List.all_eq_true.mp h3 _ (mem_leaves hv)
        simp only at h4
        split at h4
        · rename_i p w hp hw
          simp only [Bool.and_eq_true, beq_iff_eq, List.contains_iff_mem] at h4
          exact ⟨p, w, hp, h4.1, hw, h4.2⟩
        · cases h4
  · cases h2

/-- C102: the load of each of the three files at the start succeeds without a message, and then every value of the file,
also of the motors and actuators, is in the parameter with its path. -/
theorem robots_load {d : Dict} (hd : d ∈ files) {W : Nat} {en : Msgpack.Env} (hW : 5000 ≤ W) (hen : ∀ k, en.alloc k = true) :
    ∃ doc s, pack d = .ok doc ∧ load W fuelOf en bootHeap prog doc = .ok (true, s) ∧ s.errs = 0 ∧
      ∀ q v, Leaf d q v → ∃ p w, parFind fuelOf s.heap prog.global (join q) = .ok (some p) ∧ v.value = some w ∧ Param.read s.heap p = .ok w := by
  obtain ⟨doc, s, ts, h1, h2, h3, _, h4, h5⟩ := file_loaded hd hW hen
  refine ⟨doc, s, h1, h2, h3, ?_⟩
  intro q v hv
  obtain ⟨p, w, g1, _, g2, g3⟩ := h5 q v hv
  refine ⟨p, w, ?_, g2, h4.value _ g3⟩
  rw [prog_cells.1, ← g1]
  exact parFindLoop_static h4.static _ _ _

theorem place_sound {fuel : Nat} {h : Heap} {n : Nat} {d : Dict} {ts : List (Nat × AVal)} (hp : Place fuel h n d ts) :
    ∀ t ∈ ts, Sound fuel h t.1 := by
  induction hp with
  | nil => intro t ht; cases ht
  | leaf _ _ _ hs _ _ ih =>
    intro t ht
    rcases List.mem_cons.mp ht with rfl | ht
    · exact hs
    · exact ih t ht
  | sub _ _ _ ih1 ih2 =>
    intro t ht
    rcases List.mem_append.mp ht with ht | ht
    · exact ih1 t ht
    · exact ih2 t ht

/-- Places in the code which use a parameter of the configuration as a scalar: base_controller.cpp:48-58, :93-95,
:151-162 (from `master_config`), :167-204, beacon_signal_handler.cpp:20-21, commands.cpp:719-720, :776. -/
def scalarCalls : List String := [
  "master/odometry/left_wheel_correction_factor", "master/odometry/right_wheel_correction_factor", "master/odometry/external_track_mm",
  "master/odometry/external_encoder_ticks_per_mm", "master/aversive/trajectories/windows/distance", "master/aversive/trajectories/windows/angle",
  "master/aversive/trajectories/windows/angle_start", "master/aversive/control/angle/kp", "master/aversive/control/angle/ki",
  "master/aversive/control/angle/kd", "master/aversive/control/angle/i_limit", "master/aversive/control/distance/kp",
  "master/aversive/control/distance/ki", "master/aversive/control/distance/kd", "master/aversive/control/distance/i_limit",
  "master/aversive/trajectories/distance/speed/init", "master/aversive/trajectories/angle/speed/init",
  "master/aversive/trajectories/distance/acceleration/init", "master/aversive/trajectories/angle/acceleration/init",
  "master/aversive/trajectories/distance/speed/slow", "master/aversive/trajectories/angle/speed/slow",
  "master/aversive/trajectories/distance/acceleration/slow", "master/aversive/trajectories/angle/acceleration/slow",
  "master/aversive/trajectories/distance/speed/fast", "master/aversive/trajectories/angle/speed/fast",
  "master/aversive/trajectories/distance/acceleration/fast", "master/aversive/trajectories/angle/acceleration/fast",
  "master/beacon/reflector_radius", "master/beacon/angular_offset"]

/-- As an integer: map_server.cpp:34-35, :68-69, base_controller.cpp:102-107. -/
def integerCalls : List String := ["master/robot_size_x_mm", "master/opponent_size_x_mm_default", "master/calibration_direction",
  "master/robot_alignment_length_mm"]

/-- As a boolean: map_server.cpp:36, gui/ScorePage.h:58 (with a slash in front). -/
def booleanCalls : List String := ["master/is_main_robot"]

def calls? (d : Dict) : Bool :=
  (scalarCalls.all fun c => (leaves d).any fun x => join x.1 == str c && x.2.ty == some .scalar) &&
  (integerCalls.all fun c => (leaves d).any fun x => join x.1 == str c && x.2.ty == some .integer) &&
  (booleanCalls.all fun c => (leaves d).any fun x => join x.1 == str c && x.2.ty == some .boolean)

theorem files_calls : ∀ d ∈ files, calls? d = true := by
  rw [← List.all_eq_true]
  decide +kernel

theorem leaf_of_mem {d : Dict} : ∀ {q : Path} {v : Scalar}, (q, v) ∈ leaves d → Leaf d q v := by
  induction d with
  | nil => intro q v h; cases h
  | leaf k w r ih =>
    intro q v h
    rcases List.mem_cons.mp h with h | h
    · injection h with h1 h2
      subst h1; subst h2
      exact .here _ _ _
    · exact .skipLeaf (ih h)
  | sub k d r ih1 ih2 =>
    intro q v h
    rcases List.mem_append.mp h with h | h
    · obtain ⟨x, hx, he⟩ := List.mem_map.mp h
      injection he with h1 h2
      subst h1; subst h2
      exact .deep (ih1 hx)
    · exact .skipSub (ih2 h)

/-- Reading a loaded parameter. -/
theorem loaded_get {fuel : Nat} {h h' : Heap} {P : Prog} {ts : List (Nat × AVal)} (hl : LoadedAll h h' ts) {path : Str} {p : Nat} {w : AVal}
    (hf : parFind fuel h P.global path = .ok (some p)) (hs : Sound fuel h p) (ht : (p, w) ∈ ts) :
    ∃ h'', getParam fuel h' P path = .ok p ∧ changedClear fuel h' p = .ok h'' ∧ Param.read h'' p = .ok w := by
  have hread := hl.value _ ht
  have hdef := read_defined hread
  have hsound : Sound fuel h' p := ⟨by rw [hl.static.parent, hl.static.parNs]; exact hs.chain, fun _ => hdef⟩
  obtain ⟨h'', c1, _, c3, c4⟩ := changedClear_ok hsound
  refine ⟨h'', ?_, c1, (read_congr (h := h') (h' := h'') (by rw [c3]) (by rw [c4])).trans hread⟩
  have hf' : parFind fuel h' P.global path = .ok (some p) := by rw [← hf]; exact parFindLoop_static hl.static _ _ _
  unfold getParam
  rw [hf']; rfl

/-- C102: after the load, all places in the code which read the configuration get the value of the file: none uses a null
pointer or fails in an assertion. -/
theorem robots_calls {d : Dict} (hd : d ∈ files) {W : Nat} {en : Msgpack.Env} (hW : 5000 ≤ W) (hen : ∀ k, en.alloc k = true) :
    ∃ doc s, pack d = .ok doc ∧ load W fuelOf en bootHeap prog doc = .ok (true, s) ∧
      (∀ c ∈ scalarCalls, ∃ q x h', join q = str c ∧ Leaf d q (.float x) ∧ getScalar fuelOf s.heap prog (str c) = .ok (h', x)) ∧
      (∀ c ∈ integerCalls, ∃ q i h', join q = str c ∧ Leaf d q (.int i) ∧ getInteger fuelOf s.heap prog (str c) = .ok (h', BitVec.ofInt 32 i)) ∧
      (∀ c ∈ booleanCalls, ∃ q b h', join q = str c ∧ Leaf d q (.bool b) ∧ getBoolean fuelOf s.heap prog (str c) = .ok (h', b) ∧
        getBoolean fuelOf s.heap prog (slash :: str c) = .ok (h', b)) := by
  obtain ⟨doc, s, ts, h1, h2, _, h3, h4, h5⟩ := file_loaded hd hW hen
  have hc := files_calls d hd
  simp only [calls?, Bool.and_eq_true] at hc
  obtain ⟨⟨k1, k2⟩, k3⟩ := hc
  have key : ∀ {cs : List String} {t : Ty}, (cs.all fun c => (leaves d).any fun x => join x.1 == str c && x.2.ty == some t) = true → ∀ c ∈ cs,
      ∃ q v p w, join q = str c ∧ Leaf d q v ∧ v.ty = some t ∧ v.value = some w ∧ (p, w) ∈ ts ∧ Sound fuelOf bootHeap p ∧
        parFind fuelOf bootHeap prog.global (str c) = .ok (some p) ∧ parFind fuelOf bootHeap prog.global (slash :: str c) = .ok (some p) := by
    intro cs t hcs c hc
    obtain ⟨⟨q, v⟩, hm, he⟩ := List.any_eq_true.mp (List.all_eq_true.mp hcs c hc)
    simp only [Bool.and_eq_true, beq_iff_eq] at he
    obtain ⟨p, w, g1, g2, g3, g4⟩ := h5 q v (leaf_of_mem hm)
    rw [he.1] at g1 g2
    exact ⟨q, v, p, w, he.1, leaf_of_mem hm, he.2, g3, g4, place_sound h3 _ g4, by rw [prog_cells.1]; exact g1, by rw [prog_cells.1]; exact g2⟩
  refine ⟨doc, s, h1, h2, ?_, ?_, ?_⟩
  · intro c hc
    obtain ⟨q, v, p, w, e1, e2, e3, e4, e5, e6, e7, _⟩ := key k1 c hc
    cases v with
    | float x =>
      injection e4 with e4
      subst e4
      obtain ⟨h', c1, c2, c3⟩ := loaded_get h4 e7 e6 e5
      refine ⟨q, x, h', e1, e2, ?_⟩
      unfold getScalar
      rw [c1]
      simp only [bind, Except.bind, c2, GetErr.lift, scalar_of_read c3, pure, Except.pure]
    | _ => cases e3
  · intro c hc
    obtain ⟨q, v, p, w, e1, e2, e3, e4, e5, e6, e7, _⟩ := key k2 c hc
    cases v with
    | int x =>
      injection e4 with e4
      subst e4
      obtain ⟨h', c1, c2, c3⟩ := loaded_get h4 e7 e6 e5
      refine ⟨q, x, h', e1, e2, ?_⟩
      unfold getInteger
      rw [c1]
      simp only [bind, Except.bind, c2, GetErr.lift, integer_of_read c3, pure, Except.pure]
    | _ => cases e3
  · intro c hc
    obtain ⟨q, v, p, w, e1, e2, e3, e4, e5, e6, e7, e8⟩ := key k3 c hc
    cases v with
    | bool x =>
      injection e4 with e4
      subst e4
      obtain ⟨h', c1, c2, c3⟩ := loaded_get h4 e7 e6 e5
      obtain ⟨h'', d1, d2, d3⟩ := loaded_get h4 e8 e6 e5
      rw [c2] at d2
      injection d2 with d2
      subst d2
      refine ⟨q, x, h', e1, e2, ?_, ?_⟩
      · unfold getBoolean
        rw [c1]
        simp only [bind, Except.bind, c2, GetErr.lift, boolean_of_read c3, pure, Except.pure]
      · unfold getBoolean
        rw [d1]
        simp only [bind, Except.bind, c2, GetErr.lift, boolean_of_read c3, pure, Except.pure]
    | _ => cases e3

/-- The environment used in examples. -/
example : ∃ W en, 5000 ≤ W ∧ (∀ k, Msgpack.Env.alloc en k = true) := ⟨5000, ⟨fun _ => 0, fun _ => true⟩, Nat.le_refl _, fun _ => rfl⟩

end Verif.Config
