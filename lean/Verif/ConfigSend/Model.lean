/-!
# Sending the configuration to the master — model

`tools/config/config_send.py`: `keys_to_str`, `config_split` and the calls made by `send_config_file`. The file has been read (`yaml.load`), the replies of the master are ignored, as they are by the code except for a warning.
-/

namespace Verif.ConfigSend

mutual
/-- What YAML gives: a value that is not a dictionary, or a dictionary, whose keys may be of any kind -/
inductive Val (K : Type) where
  | leaf (x : String)
  | dict (es : Ents K)
/-- The entries of a dictionary in their order -/
inductive Ents (K : Type) where
  | nil
  | cons (k : K) (v : Val K) (es : Ents K)
end

/-- `d[k]` -/
def Ents.find {K : Type} [DecidableEq K] : Ents K → K → Option (Val K)
  | .nil, _ => none
  | .cons k v es, l => if l = k then some v else es.find l

/-- `d[k] = v`: a key that is there keeps its place. -/
def Ents.put {K : Type} [DecidableEq K] (l : K) (u : Val K) : Ents K → Ents K
  | .nil => .cons l u .nil
  | .cons k v es => if l = k then .cons k u es else .cons k v (es.put l u)

/-- `del d[k]` -/
def Ents.del {K : Type} [DecidableEq K] (l : K) : Ents K → Ents K
  | .nil => .nil
  | .cons k v es => if l = k then es else .cons k v (es.del l)

/-- The entries as a list -/
def Ents.items {K : Type} : Ents K → List (K × Val K)
  | .nil => []
  | .cons k v es => (k, v) :: es.items

mutual
/-- `keys_to_str`, config_send.py:13-21; `str` is the function of that name. -/
def keysToStr {K : Type} (str : K → String) : Val K → Val String
  | .leaf x => .leaf x
  | .dict es => .dict (convert str es .nil)
/-- The comprehension, config_send.py:21: the entries are set one after the other. -/
def convert {K : Type} (str : K → String) : Ents K → Ents String → Ents String
  | .nil, acc => acc
  | .cons k v es, acc => convert str es (acc.put (str k) (keysToStr str v))
end

/-- `config_split`, config_send.py:33-45; `none`: an exception, as "actuator" is not a dictionary -/
def split (config : Ents String) : Option (List (Ents String)) :=
  match config.find "actuator" with
  | none => some [config]
  | some (.leaf _) => none
  | some (.dict names) => some (names.items.map (fun x => .cons "actuator" (.dict (.cons x.1 x.2 .nil)) .nil) ++ [config.del "actuator"])

/-- A call to the master -/
inductive Call where
  | create (name : String)
  | update (config : Ents String)

/-- `send_config_file`, config_send.py:48-61: first the actuators are created; `none`: an exception, or the file is not a dictionary (not modelled) -/
def send {K : Type} (str : K → String) (config : Val K) : Option (List Call) :=
  match keysToStr str config with
  | .leaf _ => none
  | .dict es =>
    match es.find "actuator" with
    | none => (split es).map fun cs => cs.map .update
    | some (.leaf _) => none
    | some (.dict names) => (split es).map fun cs => names.items.map (fun x => .create x.1) ++ cs.map .update

end Verif.ConfigSend
