/-!
# Insertion-ordered dictionaries

Model of Python's built-in `dict` (Python language semantics, not code of the repository): a list of key/value pairs in
insertion order. Assigning to an existing key keeps its position; deletion removes the pair.
-/

namespace Dronecan

/-- A Python `dict`. -/
abbrev Dict (κ : Type) (ν : Type) := List (κ × ν)

namespace Dict
variable {κ ν : Type} [DecidableEq κ]

/-- `d.get(k)`. -/
def get? : Dict κ ν → κ → Option ν
  | [], _ => none
  | (k', v) :: d, k => if k' = k then some v else get? d k

/-- `k in d`. -/
def contains (d : Dict κ ν) (k : κ) : Bool := (get? d k).isSome

/-- `d[k] = v`. -/
def set : Dict κ ν → κ → ν → Dict κ ν
  | [], k, v => [(k, v)]
  | (k', v') :: d, k, v => if k' = k then (k', v) :: d else (k', v') :: set d k v

/-- `del d[k]` for a key that is present (no effect otherwise; the callers check). -/
def del : Dict κ ν → κ → Dict κ ν
  | [], _ => []
  | (k', v') :: d, k => if k' = k then d else (k', v') :: del d k

/-- `d.keys()`, in order. -/
def keys (d : Dict κ ν) : List κ := List.map Prod.fst d

end Dict
end Dronecan
