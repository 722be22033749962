import Verif.Model.Container

/-!
# Specification of array containers: plain Python lists

`plainStep` says what each operation does to an ordinary list of values, `opOk` when it is expected to succeed.
`norm v` is the value read back after storing `v` (for integers: `v` saturated or wrapped to the element type), and `acc v`
says whether `v` can be stored at all.
-/

namespace Dronecan

/-- The position denoted by `i` in a list of `n` elements, when it exists: `0..n-1`, or counted from the end. -/
def InRange (n : Nat) (i : Int) : Prop := -(n : Int) ≤ i ∧ i < n

/-- Position denoted by an index that is in range. -/
def posOf (n : Nat) (i : Int) : Nat := if 0 ≤ i then i.toNat else (n + i).toNat

/-- Position denoted by an insertion point or slice bound: beyond the ends means at the ends. -/
def gapOf (n : Nat) (i : Int) : Nat := if 0 ≤ i then min i.toNat n else (n + i).toNat

/-- What an operation does to a plain list of values. -/
def plainStep {V : Type} [DecidableEq V] (norm : V → V) : ArrOp V → List V → List V
  | .append v, l => l ++ [norm v]
  | .insert i v, l => l.insertIdx (gapOf l.length i) (norm v)
  | .setItem i v, l => l.set (posOf l.length i) (norm v)
  | .delItem i, l => l.eraseIdx (posOf l.length i)
  | .delSlice a b, l =>
    let lo := match a with | none => 0 | some i => gapOf l.length i
    let hi := match b with | none => l.length | some i => gapOf l.length i
    l.take lo ++ l.drop (max lo hi)
  | .pop i, l => l.eraseIdx (posOf l.length i)
  | .remove v, l => l.erase v
  | .reverse, l => l.reverse
  | .clear, _ => []
  | .extend vs, l => l ++ vs.map norm
  | .assign vs, _ => vs.map norm
  | .fromBytes vs, _ => vs.map norm

/-- When an operation succeeds: the index exists, the value can be stored, and there is room. -/
def opOk {V : Type} (acc : V → Bool) (maxSize : Nat) : ArrOp V → List V → Prop
  | .append v, l => l.length < maxSize ∧ acc v
  | .insert i v, l => l.length < maxSize ∧ i < maxSize ∧ acc v
  | .setItem i v, l => InRange l.length i ∧ acc v
  | .delItem i, l => InRange l.length i
  | .delSlice _ _, _ => True
  | .pop i, l => InRange l.length i
  | .remove v, l => v ∈ l
  | .reverse, _ => True
  | .clear, _ => True
  | .extend vs, l => l.length + vs.length ≤ maxSize ∧ ∀ v ∈ vs, acc v
  | .assign vs, _ => vs.length ≤ maxSize ∧ ∀ v ∈ vs, acc v
  | .fromBytes vs, _ => vs.length ≤ maxSize ∧ ∀ v ∈ vs, acc v

/-- What is left behind by an operation that raised: single-element operations change nothing; `extend`, the assignment
of a whole list and `from_bytes` store the elements one after the other and keep those that came before the offending one. -/
def failStep {V : Type} (norm : V → V) (acc : V → Bool) (maxSize : Nat) : ArrOp V → List V → List V
  | .extend vs, l => l ++ ((vs.takeWhile acc).take (maxSize - l.length)).map norm
  | .assign vs, _ => ((vs.takeWhile acc).take maxSize).map norm
  | .fromBytes vs, _ => ((vs.takeWhile acc).take maxSize).map norm
  | _, l => l

/-- The history as seen by a plain list: which operations succeed, and the contents at the end. -/
def plainRun {V : Type} [DecidableEq V] (norm : V → V) (acc : V → Bool) (maxSize : Nat) :
    List (ArrOp V × Bool) → List V → List V
  | [], l => l
  | (op, succeeded) :: rest, l =>
    plainRun norm acc maxSize rest (if succeeded then plainStep norm op l else failStep norm acc maxSize op l)

end Dronecan
