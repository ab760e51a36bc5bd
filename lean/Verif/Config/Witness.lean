import Verif.Config.BootProps

/-!
# Configuration: examples and limits

Concrete files meeting the hypotheses of the theorems, and files for which the statements fail without them.
-/

namespace Verif.Config

open Verif.Param

/-- A file with a value of each type, on two levels. -/
def exampleFile : Dict :=
  .leaf (str "name") (.str (str "chaos")) <|
  .leaf (str "is_main") (.bool true) <|
  .sub (str "odometry") (.leaf (str "track") (.float 0x434AC0C1) <| .leaf (str "ticks") (.int (-4096)) <| .nil) <|
  .nil

def exampleProg : Prog :=
  match generate exampleFile with
  | .ok p => p
  | .error _ => ⟨[], []⟩

theorem example_gen : generate exampleFile = .ok exampleProg := by decide +kernel
theorem example_compiles : exampleProg.compiles = true := by decide +kernel
theorem example_noEmpty : NoEmpty exampleFile ∧ exampleFile ≠ .nil := ⟨⟨by decide, ⟨trivial, trivial⟩⟩, by decide⟩

theorem example_fits : ∀ q v, Leaf exampleFile q v → v.fits := by
  intro q v h
  have : ∀ x ∈ leaves exampleFile, fits? x.2 = true := by decide +kernel
  exact fits?_spec (this _ (mem_leaves h))

example : DistinctKeys exampleFile ∧ GoodNames exampleFile := by
  refine ⟨?_, ?_⟩
  · simp only [exampleFile, DistinctKeys, keys, and_true]
    decide +kernel
  · simp only [exampleFile, GoodNames, GoodName, and_true]
    decide +kernel

/-- The hypotheses of the theorems hold for it. -/
example : ∃ h, configInit fuelOf zero exampleProg = .ok h :=
  init_ends example_gen example_compiles example_noEmpty.1 example_noEmpty.2 (by decide +kernel)

/-- Its document, a value of it, and what `config_get_integer` returns. -/
example : ∃ h doc s h' w, configInit fuelOf zero exampleProg = .ok h ∧ pack (.sub masterName exampleFile .nil) = .ok doc ∧
    load 5000 fuelOf ⟨fun _ => 0, fun _ => true⟩ h exampleProg doc = .ok (true, s) ∧
    getInteger fuelOf s.heap exampleProg (str "master/odometry/ticks") = .ok (h', w) ∧ w.toInt = -4096 := by
  have hlen : exampleProg.ops.length ≤ fuelOf := by decide +kernel
  obtain ⟨h, hi⟩ := init_ends (h0 := zero) example_gen example_compiles example_noEmpty.1 example_noEmpty.2 hlen
  have hd : ∃ doc, pack (.sub masterName exampleFile .nil) = .ok doc ∧ doc.length = 59 := by
    cases hp : pack (.sub masterName exampleFile .nil) with
    | error e =>
      have : (pack (.sub masterName exampleFile .nil)).isOk = true := by decide +kernel
      rw [hp] at this; cases this
    | ok doc =>
      refine ⟨doc, rfl, ?_⟩
      have : (match pack (.sub masterName exampleFile .nil) with
        | .ok d => d.length
        | .error _ => 0) = 59 := by decide +kernel
      rw [hp] at this; exact this
  obtain ⟨doc, hd, hl⟩ := hd
  obtain ⟨s, hs, _, _⟩ := load_all (W := 5000) (en := ⟨fun _ => 0, fun _ => true⟩) example_gen example_compiles example_noEmpty.1 example_noEmpty.2 hlen hi example_fits (fun _ => rfl) hd
    (by omega) (by omega)
  have hg := (get_after_load example_gen example_compiles example_noEmpty.1 example_noEmpty.2 hlen hi example_fits (fun _ => rfl) hd
    (by omega) (by omega) hs (path := str "master/odometry/ticks") (k := str "ticks") (cs := [masterName, str "odometry"]) (by decide +kernel)
    (by decide +kernel)).2.1 (-4096)
  obtain ⟨h', w, g1, g2, _⟩ := hg (leaf_of_mem (by decide +kernel))
  exact ⟨h, doc, s, h', w, hi, hd, hs, g1, g2⟩

/-! ## Without the hypotheses -/

def compiles? (m : Dict) : Option Bool :=
  match generate m with
  | .ok p => some p.compiles
  | .error _ => none

/-- A mapping with only empty mappings is left out: there is not even a namespace `master`. -/
theorem empty_dropped : generate (.sub (str "a") .nil .nil) = generate .nil := by decide +kernel

/-- An empty mapping beside values is an error; beside another mapping it is not. -/
theorem empty_typeError : generate (.sub (str "a") .nil (.leaf (str "b") (.int 1) .nil)) = .error .typeError ∧
    compiles? (.sub (str "a") .nil (.sub (str "b") (.leaf (str "c") (.int 1) .nil) .nil)) = some true := by
  constructor <;> decide +kernel

/-- A hyphen is fine in the name of a number, but not in the name of a namespace or string, although the generator
replaces it: the structure has another name than the code. -/
theorem hyphen : compiles? (.leaf (str "a-b") (.int 1) .nil) = some true ∧
    compiles? (.sub (str "a-b") (.leaf (str "c") (.int 1) .nil) .nil) = some false ∧
    compiles? (.leaf (str "a-b") (.str []) .nil) = some false := by
  refine ⟨?_, ?_, ?_⟩ <;> decide +kernel

/-- Names in the way of generated ones. -/
theorem clashes : compiles? (.leaf (str "ns") (.int 1) .nil) = some false ∧
    compiles? (.leaf (str "x") (.str []) (.leaf (str "x_buffer") (.int 1) .nil)) = some false ∧
    compiles? (.leaf (str "a-b") (.int 1) (.leaf (str "a_b") (.int 1) .nil)) = some false ∧
    compiles? (.leaf (str "default") (.int 1) .nil) = some false := by
  refine ⟨?_, ?_, ?_, ?_⟩ <;> decide +kernel

/-- Result of the load of the document `d` in the program of the file `m`. -/
def load? (m d : Dict) : Option (Bool × Nat) :=
  match generate m with
  | .error _ => none
  | .ok p =>
    match configInit 20 zero p with
    | .error _ => none
    | .ok h =>
      match pack d with
      | .error _ => none
      | .ok doc =>
        match load 5000 20 ⟨fun _ => 0, fun _ => true⟩ h p doc with
        | .error _ => none
        | .ok (b, s) => some (b, s.errs)

def inMaster (m : Dict) : Dict := .sub masterName m .nil

/-- A string of 16 bytes stops the load, one of 15 does not. -/
theorem long_string :
    load? (.leaf (str "s") (.str (List.replicate 16 97)) .nil) (inMaster (.leaf (str "s") (.str (List.replicate 16 97)) .nil)) = some (false, 2) ∧
    load? (.leaf (str "s") (.str (List.replicate 15 97)) .nil) (inMaster (.leaf (str "s") (.str (List.replicate 15 97)) .nil)) = some (true, 0) := by
  constructor <;> decide +kernel

/-- An integer of more than 31 bits is refused with a message; the load goes on. -/
theorem large_integer :
    load? (.leaf (str "s") (.int 2147483648) .nil) (inMaster (.leaf (str "s") (.int 2147483648) .nil)) = some (true, 1) ∧
    load? (.leaf (str "s") (.int 2147483647) .nil) (inMaster (.leaf (str "s") (.int 2147483647) .nil)) = some (true, 0) := by
  constructor <;> decide +kernel

/-- A section unknown to the program stops the load; an unknown parameter gives a message only. -/
theorem unknown_section :
    load? (.leaf (str "a") (.int 1) .nil) (.sub (str "b") (.leaf (str "a") (.int 1) .nil) (inMaster (.leaf (str "a") (.int 1) .nil))) = some (false, 2) ∧
    load? (.leaf (str "a") (.int 1) .nil) (inMaster (.leaf (str "b") (.int 1) (.leaf (str "a") (.int 1) .nil))) = some (true, 1) := by
  constructor <;> decide +kernel

end Verif.Config
