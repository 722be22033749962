import Verif.Model.Equality
import Verif.Props.FloatField
import Verif.Props.Prim
import Verif.Props.TextField

/-!
# C144: arrays are equal just if they say the same

Comparing an array field with a list, another array or a text.
-/

namespace Dronecan
namespace Equality
open FloatField (Num Representable largest IsFloat)
open Float16 (PyFloat)

/-! ## Specification -/

/-- What a number stands for: a rational number or an infinity. NaN stands for nothing. -/
inductive Quantity where
  | rat (q : Rat)
  | inf (neg : Bool)

inductive Denotes : Num → Quantity → Prop
  | int (n : Int) : Denotes (.int n) (.rat (n : Rat))
  | pos (q : Rat) : Denotes (.float (.fin false q)) (.rat q)
  | neg (q : Rat) : Denotes (.float (.fin true q)) (.rat (-q))
  | inf (neg : Bool) : Denotes (.float (.inf neg)) (.inf neg)

/-- Two objects are alike if they are the same number, the same message object or the same text. -/
inductive Alike : Item → Item → Prop
  | num (x y : Num) (v : Quantity) : Denotes x v → Denotes y v → Alike (.num x) (.num y)
  | obj (id : Nat) : Alike (.obj id) (.obj id)
  | text (s : List Nat) : Alike (.text s) (.text s)

/-- NaN. -/
def IsNan (v : Item) : Prop := ∃ neg, v = .num (.float (.nan neg))

/-- The elements of an array of `n` objects and those of another one are alike, place by place. -/
def AlikeAll (n : Nat) (a b : Nat → Item → Prop) : Prop := ∀ i, i < n → ∃ v w, a i v ∧ b i w ∧ Alike v w

/-- A type that DSDL knows. -/
def Elem.Wf : Elem → Prop
  | .int p => p.kind ≠ .float ∧ 1 ≤ p.bitlen ∧ p.bitlen ≤ 64 ∧ (p.kind = .boolean → p.bitlen = 1)
  | .float n _ => n = 16 ∨ n = 32 ∨ n = 64
  | .compound => True

/-- An element that was never set (which has no bits) or was set or received. -/
def CellWf (e : Elem) (c : Cell) : Prop :=
  match e, c with
  | .int p, .bits b => b = [] ∨ b.length = p.bitlen
  | .float n _, .bits b => b = [] ∨ b.length = n
  | .compound, .obj _ => True
  | _, _ => False

/-- An array of a message. -/
def Arr.Wf (a : Arr) : Prop := a.elem.Wf ∧ ∀ c ∈ a.items, CellWf a.elem c

/-- What an element is on the bus: elements without bits are sent as zeros, message objects as their contents. -/
def sent (content : Nat → Bits) (e : Elem) : Cell → Bits
  | .obj id => content id
  | .bits [] => List.replicate (match e with | .int p => p.bitlen | .float n _ => n | .compound => 0) false
  | .bits b => b

/-- C144: comparing an array with anything gives an answer; an array is equal to itself; two arrays of one type are equal just if the same
is sent for both. -/
def C144_statement : Prop :=
  (∀ (a : Arr) (x : Operand), a.Wf → ∃ r, eq a x = .ok r) ∧
  (∀ a : Arr, a.Wf → eq a (.arr a) = .ok true) ∧
  ∀ (content : Nat → Bits) (a b : Arr), a.Wf → b.Wf → a.elem = b.elem → a.dynamic = b.dynamic →
    (eq a (.arr b) = .ok true ↔ a.items.map (sent content a.elem) = b.items.map (sent content b.elem))

/-! ## Numbers -/

theorem denotes_int {n : Int} {v : Quantity} (h : Denotes (.int n) v) : v = .rat (n : Rat) := by cases h; rfl

theorem denotes_fin {neg : Bool} {q : Rat} {v : Quantity} (h : Denotes (.float (.fin neg q)) v) : v = .rat (if neg then -q else q) := by
  cases h <;> rfl

theorem denotes_of_fin (neg : Bool) (q : Rat) : Denotes (.float (.fin neg q)) (.rat (if neg then -q else q)) := by
  cases neg
  · exact .pos q
  · exact .neg q

theorem denotes_inf {neg : Bool} {v : Quantity} (h : Denotes (.float (.inf neg)) v) : v = .inf neg := by cases h; rfl

theorem denotes_nan {neg : Bool} {v : Quantity} (h : Denotes (.float (.nan neg)) v) : False := by cases h

theorem rat_inj {a b : Rat} (h : Quantity.rat a = Quantity.rat b) : a = b := by injection h

theorem numEq_iff (x y : Num) : numEq x y = true ↔ ∃ v, Denotes x v ∧ Denotes y v := by
  cases x with
  | int a =>
    cases y with
    | int b =>
      simp only [numEq, beq_iff_eq]
      constructor
      · rintro rfl; exact ⟨_, .int a, .int a⟩
      · rintro ⟨v, h1, h2⟩
        have := rat_inj ((denotes_int h1).symm.trans (denotes_int h2))
        exact Rat.intCast_inj.mp this
    | float y =>
      cases y with
      | fin neg q =>
        simp only [numEq, beq_iff_eq]
        constructor
        · intro h; exact ⟨_, .int a, by rw [h]; exact denotes_of_fin neg q⟩
        · rintro ⟨v, h1, h2⟩; exact rat_inj ((denotes_int h1).symm.trans (denotes_fin h2))
      | inf neg =>
        refine ⟨fun h => by simp [numEq] at h, ?_⟩
        rintro ⟨v, h1, h2⟩; cases h1; cases h2
      | nan neg =>
        refine ⟨fun h => by simp [numEq] at h, ?_⟩
        rintro ⟨v, h1, h2⟩; cases h2
  | float x =>
    cases x with
    | fin neg q =>
      cases y with
      | int b =>
        simp only [numEq, beq_iff_eq]
        constructor
        · intro h; exact ⟨_, denotes_of_fin neg q, by rw [h]; exact .int b⟩
        · rintro ⟨v, h1, h2⟩; exact rat_inj ((denotes_fin h1).symm.trans (denotes_int h2))
      | float y =>
        cases y with
        | fin neg' q' =>
          simp only [numEq, beq_iff_eq]
          constructor
          · intro h; exact ⟨_, denotes_of_fin neg q, by rw [h]; exact denotes_of_fin neg' q'⟩
          · rintro ⟨v, h1, h2⟩; exact rat_inj ((denotes_fin h1).symm.trans (denotes_fin h2))
        | inf neg' =>
          refine ⟨fun h => by simp [numEq] at h, ?_⟩
          rintro ⟨v, h1, h2⟩
          have := (denotes_fin h1).symm.trans (denotes_inf h2)
          cases this
        | nan neg' =>
          refine ⟨fun h => by simp [numEq] at h, ?_⟩
          rintro ⟨v, h1, h2⟩; cases h2
    | inf neg =>
      cases y with
      | int b =>
        refine ⟨fun h => by simp [numEq] at h, ?_⟩
        rintro ⟨v, h1, h2⟩; cases h1; cases h2
      | float y =>
        cases y with
        | fin neg' q' =>
          refine ⟨fun h => by simp [numEq] at h, ?_⟩
          rintro ⟨v, h1, h2⟩
          have := (denotes_inf h1).symm.trans (denotes_fin h2)
          cases this
        | inf neg' =>
          simp only [numEq, beq_iff_eq]
          constructor
          · rintro rfl; exact ⟨_, .inf neg, .inf neg⟩
          · rintro ⟨v, h1, h2⟩
            have := (denotes_inf h1).symm.trans (denotes_inf h2)
            injection this
        | nan neg' =>
          refine ⟨fun h => by simp [numEq] at h, ?_⟩
          rintro ⟨v, h1, h2⟩; cases h2
    | nan neg =>
      refine ⟨fun h => by cases y <;> simp [numEq] at h, ?_⟩
      rintro ⟨v, h1, h2⟩; cases h1

theorem itemEq_iff (v w : Item) : itemEq v w = true ↔ Alike v w := by
  constructor
  · intro h
    cases v <;> cases w <;> simp only [itemEq] at h <;> try (exact absurd h (by decide))
    · obtain ⟨q, h1, h2⟩ := (numEq_iff _ _).mp h
      exact .num _ _ q h1 h2
    · rw [beq_iff_eq.mp h]; exact .obj _
    · rw [beq_iff_eq.mp h]; exact .text _
  · intro h
    cases h with
    | num x y q h1 h2 => exact (numEq_iff _ _).mpr ⟨q, h1, h2⟩
    | obj id => simp [itemEq]
    | text s => simp [itemEq]

theorem Alike.symm {v w : Item} (h : Alike v w) : Alike w v := by
  cases h with
  | num x y q h1 h2 => exact .num _ _ q h2 h1
  | obj id => exact .obj id
  | text s => exact .text s

theorem itemEq_comm (v w : Item) : itemEq v w = itemEq w v := by
  rw [Bool.eq_iff_iff, itemEq_iff, itemEq_iff]
  exact ⟨Alike.symm, Alike.symm⟩

theorem listEq_comm (l m : List Item) : listEq l m = listEq m l := by
  induction l generalizing m with
  | nil => cases m <;> rfl
  | cons a l ih =>
    cases m with
    | nil => rfl
    | cons b m => simp only [listEq]; rw [ih, itemEq_comm]

theorem listEq_iff (l m : List Item) : listEq l m = true ↔
    l.length = m.length ∧ ∀ i, i < l.length → ∃ v w, l[i]? = some v ∧ m[i]? = some w ∧ Alike v w := by
  induction l generalizing m with
  | nil =>
    cases m with
    | nil => simp [listEq]
    | cons b m => simp [listEq]
  | cons a l ih =>
    cases m with
    | nil => simp [listEq]
    | cons b m =>
      simp only [listEq, Bool.and_eq_true, itemEq_iff, ih]
      constructor
      · rintro ⟨h0, h1, h2⟩
        refine ⟨by simp [h1], fun i hi => ?_⟩
        cases i with
        | zero => exact ⟨a, b, by simp, by simp, h0⟩
        | succ i =>
          simp only [List.length_cons] at hi
          obtain ⟨v, w, h⟩ := h2 i (by omega)
          exact ⟨v, w, by simpa using h⟩
      · rintro ⟨h1, h2⟩
        simp only [List.length_cons] at h1
        refine ⟨?_, by omega, fun i hi => ?_⟩
        · obtain ⟨v, w, hv, hw, h⟩ := h2 0 (by simp)
          simp only [List.getElem?_cons_zero, Option.some.injEq] at hv hw
          rwa [hv, hw]
        · obtain ⟨v, w, h⟩ := h2 (i + 1) (by simp; omega)
          exact ⟨v, w, by simpa using h⟩

/-! ## Elements -/

theorem get_ok (n : Nat) (hn : n = 16 ∨ n = 32 ∨ n = 64) (b : Bits) (hb : b.length = n) : ∃ x, FloatField.get n b = .ok (some x) := by
  have h0 : b ≠ [] := by rintro rfl; simp at hb; omega
  have hlt : natOfBits b < 2 ^ n := by rw [← hb]; exact natOfBits_lt b
  unfold FloatField.get
  rw [if_neg h0]
  rcases hn with rfl | rfl | rfl
  · rw [if_pos rfl, Float16.C59_decode _ hlt]
    exact ⟨_, rfl⟩
  · rw [if_neg (by decide), if_pos rfl]; exact ⟨_, rfl⟩
  · rw [if_neg (by decide), if_neg (by decide), if_pos rfl]; exact ⟨_, rfl⟩

theorem getInt_ok (p : PrimTy) (hp : p.kind ≠ .float) (b : Bits) (hb : b ≠ []) : ∃ v, getInt p b = some v := by
  unfold getInt
  rw [if_neg hb]
  rcases h : p.kind with _ | _ | _ | _
  · exact ⟨_, rfl⟩
  · exact ⟨_, rfl⟩
  · exact ⟨_, rfl⟩
  · exact absurd h hp

theorem read_ok (e : Elem) (he : e.Wf) (c : Cell) (hc : CellWf e c) : ∃ v, read e c = .ok v := by
  cases c with
  | obj id => exact ⟨_, rfl⟩
  | bits b =>
    unfold read
    by_cases h : b = []
    · exact ⟨_, by simp only [h]; rfl⟩
    · simp only [h, if_false]
      cases e with
      | int p =>
        obtain ⟨v, hv⟩ := getInt_ok p he.1 b h
        simp only [hv]; exact ⟨_, rfl⟩
      | float n t =>
        obtain ⟨v, hv⟩ := get_ok n he b (hc.resolve_left h)
        simp only [hv]; exact ⟨_, rfl⟩
      | compound => exact absurd hc (by simp [CellWf])

theorem readAll_spec (e : Elem) (cs : List Cell) (h : ∀ c ∈ cs, ∃ v, read e c = .ok v) :
    ∃ vs, readAll e cs = .ok vs ∧ vs.length = cs.length ∧
      ∀ (i : Nat) (v : Item), vs[i]? = some v ↔ ∃ c, cs[i]? = some c ∧ read e c = .ok v := by
  induction cs with
  | nil => exact ⟨[], rfl, rfl, by simp⟩
  | cons c cs ih =>
    obtain ⟨v, hv⟩ := h c (by simp)
    obtain ⟨vs, h1, h2, h3⟩ := ih fun d hd => h d (by simp [hd])
    refine ⟨v :: vs, ?_, by simp [h2], fun i w => ?_⟩
    · simp only [readAll, hv, h1]
    · cases i with
      | zero =>
        simp only [List.getElem?_cons_zero, Option.some.injEq]
        constructor
        · rintro rfl; exact ⟨c, rfl, hv⟩
        · rintro ⟨d, rfl, hd⟩; rw [hv] at hd; injection hd
      | succ i => simpa using h3 i w

theorem getItem_nat (a : Arr) (i : Nat) (v : Item) : getItem a (i : Int) = .ok v ↔ ∃ c, a.items[i]? = some c ∧ read a.elem c = .ok v := by
  unfold getItem pyIndex
  simp only [show ¬ ((i : Int) < 0) from by omega, if_false]
  by_cases h : i < a.items.length
  · rw [if_pos ⟨by omega, by omega⟩]
    simp [h]
  · rw [if_neg (by omega)]
    simp [List.getElem?_eq_none (by omega : a.items.length ≤ i)]

/-- Every element can be read. -/
def Arr.Readable (a : Arr) : Prop := ∀ c ∈ a.items, ∃ v, read a.elem c = .ok v

theorem Arr.Wf.readable {a : Arr} (h : a.Wf) : a.Readable := fun c hc => read_ok a.elem h.1 c (h.2 c hc)

theorem Arr.Readable.items {a : Arr} (h : a.Readable) : ∃ vs, readAll a.elem a.items = .ok vs ∧ vs.length = a.items.length ∧
    ∀ (i : Nat) (v : Item), vs[i]? = some v ↔ getItem a (i : Int) = .ok v := by
  obtain ⟨vs, h1, h2, h3⟩ := readAll_spec a.elem a.items h
  exact ⟨vs, h1, h2, fun i v => (h3 i v).trans (getItem_nat a i v).symm⟩

/-- The elements of an array, one after the other. -/
theorem Arr.Wf.items {a : Arr} (h : a.Wf) : ∃ vs, readAll a.elem a.items = .ok vs ∧ vs.length = a.items.length ∧
    ∀ (i : Nat) (v : Item), vs[i]? = some v ↔ getItem a (i : Int) = .ok v := h.readable.items

/-! ## Lists and arrays -/

theorem eq_list (a : Arr) (ha : a.Readable) (l : List Item) : ∃ r, eq a (.list l) = .ok r ∧ ne a (.list l) = .ok (!r) ∧
    (r = true ↔ l.length = a.items.length ∧ AlikeAll l.length (fun i v => getItem a (i : Int) = .ok v) (fun i w => l[i]? = some w)) := by
  obtain ⟨vs, h1, h2, h3⟩ := ha.items
  refine ⟨listEq vs l, by simp only [eq, eqList, h1], by simp only [ne, eq, eqList, h1], ?_⟩
  rw [listEq_iff]
  constructor
  · rintro ⟨hl, h⟩
    refine ⟨by omega, fun i hi => ?_⟩
    obtain ⟨v, w, hv, hw, hvw⟩ := h i (by omega)
    exact ⟨v, w, (h3 i v).mp hv, hw, hvw⟩
  · rintro ⟨hl, h⟩
    refine ⟨by omega, fun i hi => ?_⟩
    obtain ⟨v, w, hv, hw, hvw⟩ := h i (by omega)
    exact ⟨v, w, (h3 i v).mpr hv, hw, hvw⟩

/-- An array is equal to a list just if the list is as long and has the same objects. -/
theorem C144_list (a : Arr) (ha : a.Wf) (l : List Item) : ∃ r, eq a (.list l) = .ok r ∧ ne a (.list l) = .ok (!r) ∧
    (r = true ↔ l.length = a.items.length ∧ AlikeAll l.length (fun i v => getItem a (i : Int) = .ok v) (fun i w => l[i]? = some w)) :=
  eq_list a ha.readable l

/-- Two arrays, of whatever types, are equal just if they are equally long and have the same objects; it does not matter which one is
asked. -/
theorem C144_array (a b : Arr) (ha : a.Wf) (hb : b.Wf) : ∃ r, eq a (.arr b) = .ok r ∧ eq b (.arr a) = .ok r ∧
    ne a (.arr b) = .ok (!r) ∧ (r = true ↔ a.items.length = b.items.length ∧
      AlikeAll a.items.length (fun i v => getItem a (i : Int) = .ok v) (fun i w => getItem b (i : Int) = .ok w)) := by
  obtain ⟨vs, h1, h2, h3⟩ := ha.items
  obtain ⟨ws, k1, k2, k3⟩ := hb.items
  refine ⟨listEq vs ws, ?_, ?_, ?_, ?_⟩
  · simp only [eq, eqList, h1, k1]; rw [listEq_comm]
  · simp only [eq, eqList, h1, k1]
  · simp only [ne, eq, eqList, h1, k1]; rw [listEq_comm]
  rw [listEq_iff]
  constructor
  · rintro ⟨hl, h⟩
    refine ⟨by omega, fun i hi => ?_⟩
    obtain ⟨v, w, hv, hw, hvw⟩ := h i (by omega)
    exact ⟨v, w, (h3 i v).mp hv, (k3 i w).mp hw, hvw⟩
  · rintro ⟨hl, h⟩
    refine ⟨by omega, fun i hi => ?_⟩
    obtain ⟨v, w, hv, hw, hvw⟩ := h i (by omega)
    exact ⟨v, w, (h3 i v).mpr hv, (k3 i w).mpr hw, hvw⟩

/-- No array is equal to a tuple, to bytes, to a number or to None. -/
theorem C144_other (a : Arr) (ha : a.Wf) : eq a .other = .ok false ∧ ne a .other = .ok true := by
  obtain ⟨vs, h1, _⟩ := ha.items
  exact ⟨by simp only [eq, h1], by simp only [ne, eq, h1]; rfl⟩

theorem alike_self {e : Elem} {c : Cell} {v : Item} (h : read e c = .ok v) : Alike v v ↔ ¬ IsNan v := by
  constructor
  · rintro hv ⟨neg, rfl⟩
    cases hv with
    | num x y q h1 h2 => cases h1
  · intro hn
    cases v with
    | num x =>
      cases x with
      | int n => exact .num _ _ _ (.int n) (.int n)
      | float x =>
        cases x with
        | fin neg q => exact .num _ _ _ (denotes_of_fin neg q) (denotes_of_fin neg q)
        | inf neg => exact .num _ _ _ (.inf neg) (.inf neg)
        | nan neg => exact absurd ⟨neg, rfl⟩ hn
    | obj id => exact .obj id
    | text s => exact .text s
    | other =>
      exfalso
      unfold read at h
      split at h
      · cases h
      · split at h
        · cases h
        · split at h
          · split at h <;> cases h
          · split at h <;> cases h
          · cases h

/-- An array is equal to itself just if none of its elements is NaN. -/
theorem C144_self (a : Arr) (ha : a.Wf) : ∃ r, eq a (.arr a) = .ok r ∧
    (r = true ↔ ∀ (i : Nat) (v : Item), getItem a (i : Int) = .ok v → ¬ IsNan v) := by
  obtain ⟨r, h1, -, -, h2⟩ := C144_array a a ha ha
  refine ⟨r, h1, h2.trans ⟨fun ⟨_, h⟩ i v hv => ?_, fun h => ⟨rfl, fun i hi => ?_⟩⟩⟩
  · obtain ⟨c, hc, hr⟩ := (getItem_nat a i v).mp hv
    have hi : i < a.items.length := (List.getElem?_eq_some_iff.mp hc).1
    obtain ⟨v', w', hv', hw', hvw⟩ := h i hi
    rw [hv] at hv' hw'
    injection hv' with hv'
    injection hw' with hw'
    subst hv' hw'
    exact (alike_self hr).mp hvw
  · obtain ⟨v, hr⟩ := read_ok a.elem ha.1 a.items[i] (ha.2 _ (List.getElem_mem hi))
    have hv := (getItem_nat a i v).mpr ⟨_, List.getElem?_eq_getElem hi, hr⟩
    exact ⟨v, v, hv, hv, (alike_self hr).mpr (h i v hv)⟩

/-! ## What is sent -/

/-- The bits of an element, zeros if it was never set. -/
def filled (n : Nat) : Cell → Bits
  | .bits [] => List.replicate n false
  | .bits b => b
  | .obj _ => []

theorem natOfBits_replicate (n : Nat) : natOfBits (List.replicate n false) = 0 := by
  induction n with
  | zero => rfl
  | succ n ih => rw [List.replicate_succ, natOfBits_cons, ih]; simp

theorem filled_length (n : Nat) (b : Bits) (h : b = [] ∨ b.length = n) : (filled n (.bits b)).length = n := by
  rcases h with rfl | h
  · simp [filled]
  · cases b with
    | nil => simpa [filled] using h
    | cons x b => simpa [filled] using h

theorem getInt_zeros (p : PrimTy) (hp : p.kind ≠ .float) (h1 : 1 ≤ p.bitlen) : getInt p (List.replicate p.bitlen false) = some 0 := by
  have hz : List.replicate p.bitlen false ≠ [] := by
    intro h; have := congrArg List.length h; simp at this; omega
  unfold getInt
  rw [if_neg hz, natOfBits_replicate]
  have h2 := two_pow_pos_int (p.bitlen - 1)
  rcases h : p.kind with _ | _ | _ | _
  · simp
  · simp
  · simp only [Int.natCast_zero]
    rw [if_neg (by omega)]
  · exact absurd h hp

theorem read_int (p : PrimTy) (hp : p.kind ≠ .float) (h1 : 1 ≤ p.bitlen) (b : Bits) (hb : b = [] ∨ b.length = p.bitlen) :
    ∃ v, getInt p (filled p.bitlen (.bits b)) = some v ∧ read (.int p) (.bits b) = .ok (.num (.int v)) := by
  cases b with
  | nil => exact ⟨0, getInt_zeros p hp h1, rfl⟩
  | cons x b =>
    obtain ⟨v, hv⟩ := getInt_ok p hp (x :: b) (by simp)
    exact ⟨v, hv, by simp [read, hv]⟩

/-- Integers of a type are told apart by their bits. -/
theorem getInt_inj (p : PrimTy) (h1 : 1 ≤ p.bitlen) (hbool : p.kind = .boolean → p.bitlen = 1) (b c : Bits)
    (hb : b.length = p.bitlen) (hc : c.length = p.bitlen) (v : Int) (h : getInt p b = some v) (k : getInt p c = some v) : b = c := by
  have hb0 : b ≠ [] := by rintro rfl; simp at hb; omega
  have hc0 : c ≠ [] := by rintro rfl; simp at hc; omega
  have lb := natOfBits_lt b
  have lc := natOfBits_lt c
  rw [hb] at lb
  rw [hc] at lc
  apply natOfBits_inj (hb.trans hc.symm)
  unfold getInt at h k
  rw [if_neg hb0] at h
  rw [if_neg hc0] at k
  have hp := two_pow_pred p.bitlen h1
  have hz : ((2 ^ p.bitlen : Nat) : Int) = 2 ^ p.bitlen := cast_two_pow _
  rcases hk : p.kind with _ | _ | _ | _
  · have e := hbool hk
    rw [e] at lb lc
    simp only [hk] at h k
    injection h with h
    injection k with k
    rw [← k] at h
    by_cases u : (natOfBits b : Int) = 0 <;> by_cases w : (natOfBits c : Int) = 0 <;> simp [u, w] at h <;> omega
  · simp only [hk] at h k
    injection h with h
    injection k with k
    omega
  · simp only [hk] at h k
    injection h with h
    injection k with k
    rw [← k] at h
    split at h <;> split at h <;> omega
  · simp only [hk] at h
    cases h

theorem map_eq_iff {α β : Type} (f g : α → β) (l m : List α) : l.map f = m.map g ↔
    l.length = m.length ∧ ∀ (i : Nat) (x y : α), l[i]? = some x → m[i]? = some y → f x = g y := by
  constructor
  · intro h
    refine ⟨by simpa using congrArg List.length h, fun i x y hx hy => ?_⟩
    have := congrArg (fun z => z[i]?) h
    simpa [hx, hy] using this
  · rintro ⟨hl, h⟩
    apply List.ext_getElem?
    intro i
    by_cases hi : i < l.length
    · simp only [List.getElem?_map, List.getElem?_eq_getElem hi, List.getElem?_eq_getElem (hl ▸ hi : i < m.length), Option.map_some]
      rw [h i _ _ (List.getElem?_eq_getElem hi) (List.getElem?_eq_getElem (hl ▸ hi : i < m.length))]
    · simp [List.getElem?_eq_none (by omega : l.length ≤ i), List.getElem?_eq_none (by omega : m.length ≤ i)]

/-- Equality of arrays, place by place. -/
theorem eq_iff (a b : Arr) (ha : a.Wf) (hb : b.Wf) (R : Cell → Cell → Prop)
    (hR : ∀ (i : Nat) (c d : Cell) (v w : Item), getItem a (i : Int) = .ok v → getItem b (i : Int) = .ok w →
      CellWf a.elem c → CellWf b.elem d → read a.elem c = .ok v → read b.elem d = .ok w → (Alike v w ↔ R c d)) :
    eq a (.arr b) = .ok true ↔ a.items.length = b.items.length ∧
      ∀ (i : Nat) (c d : Cell), a.items[i]? = some c → b.items[i]? = some d → R c d := by
  obtain ⟨r, h1, -, -, h2⟩ := C144_array a b ha hb
  rw [h1]
  simp only [Except.ok.injEq]
  rw [h2]
  constructor
  · rintro ⟨hl, h⟩
    refine ⟨hl, fun i c d hc hd => ?_⟩
    have hi := (List.getElem?_eq_some_iff.mp hc).1
    obtain ⟨v, w, gv, gw, hvw⟩ := h i hi
    obtain ⟨c', hc', hv⟩ := (getItem_nat a i v).mp gv
    obtain ⟨d', hd', hw⟩ := (getItem_nat b i w).mp gw
    rw [hc] at hc'
    rw [hd] at hd'
    injection hc' with hc'
    injection hd' with hd'
    subst hc' hd'
    exact (hR i c d v w gv gw (ha.2 c (List.mem_of_getElem? hc)) (hb.2 d (List.mem_of_getElem? hd)) hv hw).mp hvw
  · rintro ⟨hl, h⟩
    refine ⟨hl, fun i hi => ?_⟩
    have hc : a.items[i]? = some a.items[i] := List.getElem?_eq_getElem hi
    have hd : b.items[i]? = some b.items[i] := List.getElem?_eq_getElem (hl ▸ hi)
    have wc := ha.2 _ (List.mem_of_getElem? hc)
    have wd := hb.2 _ (List.mem_of_getElem? hd)
    obtain ⟨v, hv⟩ := read_ok a.elem ha.1 _ wc
    obtain ⟨w, hw⟩ := read_ok b.elem hb.1 _ wd
    have gv := (getItem_nat a i v).mpr ⟨_, hc, hv⟩
    have gw := (getItem_nat b i w).mpr ⟨_, hd, hw⟩
    exact ⟨v, w, gv, gw, (hR i _ _ v w gv gw wc wd hv hw).mpr (h i _ _ hc hd)⟩

theorem sent_int (content : Nat → Bits) (p : PrimTy) (c : Cell) (h : CellWf (.int p) c) : sent content (.int p) c = filled p.bitlen c := by
  cases c with
  | obj id => exact absurd h (by simp [CellWf])
  | bits b => cases b <;> rfl

/-- Arrays of integers or booleans of one type are equal just if the same is sent for both. -/
theorem C144_partial (content : Nat → Bits) (a b : Arr) (ha : a.Wf) (hb : b.Wf) (p : PrimTy) (hp : a.elem = .int p) (he : b.elem = .int p) :
    eq a (.arr b) = .ok true ↔ a.items.map (sent content a.elem) = b.items.map (sent content b.elem) := by
  rw [map_eq_iff]
  apply eq_iff a b ha hb (fun c d => sent content a.elem c = sent content b.elem d)
  intro i c d v w _ _ hc hd hv hw
  have hw1 := ha.1
  rw [hp] at hc hv hw1 ⊢
  rw [he] at hd hw ⊢
  obtain ⟨k1, k2, k3, k4⟩ := hw1
  rw [sent_int content p c hc, sent_int content p d hd]
  cases c with
  | obj id => exact absurd hc (by simp [CellWf])
  | bits c =>
    cases d with
    | obj id => exact absurd hd (by simp [CellWf])
    | bits d =>
      obtain ⟨x, hx, hrx⟩ := read_int p k1 k2 c hc
      obtain ⟨y, hy, hry⟩ := read_int p k1 k2 d hd
      rw [hrx] at hv
      rw [hry] at hw
      injection hv with hv
      injection hw with hw
      subst hv hw
      constructor
      · intro h
        cases h with
        | num _ _ q h1 h2 =>
          have := Rat.intCast_inj.mp (rat_inj ((denotes_int h1).symm.trans (denotes_int h2)))
          subst this
          exact getInt_inj p k2 k4 _ _ (filled_length _ _ hc) (filled_length _ _ hd) x hx hy
      · intro h
        rw [h, hy] at hx
        injection hx with hx
        subst hx
        exact .num _ _ _ (.int _) (.int _)

/-- Negative zero. -/
def IsNegZero (v : Item) : Prop := v = .num (.float (.fin true 0))

theorem get_zeros (n : Nat) (hn : n = 16 ∨ n = 32 ∨ n = 64) : FloatField.get n (List.replicate n false) = .ok (some (.fin false 0)) := by
  rcases hn with rfl | rfl | rfl <;> decide +kernel

theorem read_float (n : Nat) (t : Bool) (hn : n = 16 ∨ n = 32 ∨ n = 64) (b : Bits) (hb : b = [] ∨ b.length = n) :
    ∃ x, FloatField.get n (filled n (.bits b)) = .ok (some x) ∧ ∃ y, read (.float n t) (.bits b) = .ok (.num y) ∧
      (y = .float x ∨ y = .int 0 ∧ x = .fin false 0) := by
  cases b with
  | nil => exact ⟨_, get_zeros n hn, .int 0, rfl, .inr ⟨rfl, rfl⟩⟩
  | cons z b =>
    obtain ⟨x, hx⟩ := get_ok n hn (z :: b) (hb.resolve_left (by simp))
    exact ⟨x, hx, .float x, by simp [read, hx], .inl rfl⟩

theorem denotes_float {x : PyFloat} {y : Num} (h : y = .float x ∨ y = .int 0 ∧ x = .fin false 0) (v : Quantity) :
    Denotes y v ↔ Denotes (.float x) v := by
  rcases h with rfl | ⟨rfl, rfl⟩
  · rfl
  · constructor
    · intro h; rw [denotes_int h]; exact .pos 0
    · intro h
      have := denotes_fin h
      rw [this]
      exact .int 0

theorem fin_nonneg (n : Nat) (hn : n = 16 ∨ n = 32 ∨ n = 64) (b : Bits) (hb : b.length = n) (neg : Bool) (q : Rat)
    (h : FloatField.get n b = .ok (some (.fin neg q))) : 0 ≤ q := by
  have h0 : b ≠ [] := by rintro rfl; simp at hb; omega
  have hlt : natOfBits b < 2 ^ n := by rw [← hb]; exact natOfBits_lt b
  unfold FloatField.get at h
  rw [if_neg h0] at h
  have key : ∀ (F : FloatField.Fmt) (u : Nat), F.unpack u = .fin neg q → 0 ≤ q := by
    intro F u hu
    unfold FloatField.Fmt.unpack at hu
    simp only at hu
    split at hu
    · injection hu with _ hu; rw [← hu]; exact FloatField.value_nonneg F _
    · split at hu <;> cases hu
  rcases hn with rfl | rfl | rfl
  · rw [if_pos rfl, Float16.C59_decode _ hlt] at h
    simp only [Except.map, Except.ok.injEq, Option.some.injEq] at h
    unfold Float16.half at h
    simp only at h
    split at h
    · injection h with _ h; rw [← h]; exact Float16.halfMag_nonneg _
    · split at h <;> cases h
  · rw [if_neg (by decide), if_pos rfl] at h
    injection h with h
    injection h with h
    exact key _ _ h
  · rw [if_neg (by decide), if_neg (by decide), if_pos rfl] at h
    injection h with h
    injection h with h
    exact key _ _ h

theorem sent_float (content : Nat → Bits) (n : Nat) (t : Bool) (c : Cell) (h : CellWf (.float n t) c) :
    sent content (.float n t) c = filled n c := by
  cases c with
  | obj id => exact absurd h (by simp [CellWf])
  | bits b => cases b <;> rfl

/-- Numbers that are neither NaN nor negative zero are the same only if they are written in the same way. -/
theorem denotes_inj {x y : PyFloat} {v : Quantity} (hx : ∀ neg q, x = .fin neg q → 0 ≤ q) (hy : ∀ neg q, y = .fin neg q → 0 ≤ q)
    (zx : x ≠ .fin true 0) (zy : y ≠ .fin true 0) (h : Denotes (.float x) v) (k : Denotes (.float y) v) : x = y := by
  cases x with
  | nan neg => exact absurd h denotes_nan
  | inf neg =>
    have := denotes_inf h
    subst this
    cases k
    rfl
  | fin neg q =>
    have e := denotes_fin h
    subst e
    have hq := hx _ _ rfl
    cases y with
    | nan neg => exact absurd k denotes_nan
    | inf neg' => cases denotes_inf k
    | fin neg' q' =>
      have hq' := hy _ _ rfl
      have e := rat_inj (denotes_fin k)
      cases neg <;> cases neg' <;> simp only [Bool.false_eq_true, if_true, if_false] at e
      · rw [e]
      · have : q' = 0 := by grind
        subst this
        exact absurd rfl zy
      · have : q = 0 := by grind
        subst this
        exact absurd rfl zx
      · have : q = q' := by grind
        rw [this]

/-- Arrays of floating-point numbers of one format that contain neither NaN nor negative zero are equal just if the same is sent for both. -/
theorem C144_float (content : Nat → Bits) (a b : Arr) (ha : a.Wf) (hb : b.Wf) (n : Nat) (t t' : Bool) (hp : a.elem = .float n t)
    (he : b.elem = .float n t') (h0 : ∀ (i : Nat) (v : Item), getItem a (i : Int) = .ok v ∨ getItem b (i : Int) = .ok v → ¬ IsNan v ∧ ¬ IsNegZero v) :
    eq a (.arr b) = .ok true ↔ a.items.map (sent content a.elem) = b.items.map (sent content b.elem) := by
  rw [map_eq_iff]
  apply eq_iff a b ha hb (fun c d => sent content a.elem c = sent content b.elem d)
  intro i c d v w gv gw hc hd hv hw
  have nv := h0 i v (.inl gv)
  have nw := h0 i w (.inr gw)
  have hn := ha.1
  rw [hp] at hc hv hn ⊢
  rw [he] at hd hw ⊢
  change n = 16 ∨ n = 32 ∨ n = 64 at hn
  rw [sent_float content n t c hc, sent_float content n t' d hd]
  cases c with
  | obj id => exact absurd hc (by simp [CellWf])
  | bits c =>
    cases d with
    | obj id => exact absurd hd (by simp [CellWf])
    | bits d =>
      obtain ⟨x, hx, x', hrx, ex⟩ := read_float n t hn c hc
      obtain ⟨y, hy, y', hry, ey⟩ := read_float n t' hn d hd
      have lc := filled_length _ _ hc
      have ld := filled_length _ _ hd
      rw [hrx] at hv
      rw [hry] at hw
      injection hv with hv
      injection hw with hw
      subst hv hw
      have nx : ∀ neg, x ≠ .nan neg := by
        rintro neg rfl
        rcases ex with rfl | ⟨_, h⟩
        · exact nv.1 ⟨neg, rfl⟩
        · cases h
      have zx : x ≠ .fin true 0 := by
        rintro rfl
        rcases ex with rfl | ⟨_, h⟩
        · exact nv.2 rfl
        · cases h
      have zy : y ≠ .fin true 0 := by
        rintro rfl
        rcases ey with rfl | ⟨_, h⟩
        · exact nw.2 rfl
        · cases h
      constructor
      · intro h
        cases h with
        | num _ _ q h1 h2 =>
          have h1 := (denotes_float ex q).mp h1
          have h2 := (denotes_float ey q).mp h2
          have e : x = y := denotes_inj (fun neg r hr => fin_nonneg n hn _ lc neg r (by rw [← hr]; exact hx))
            (fun neg r hr => fin_nonneg n hn _ ld neg r (by rw [← hr]; exact hy)) zx zy h1 h2
          have s1 := FloatField.C112_partial n true _ x hn lc hx nx (.inl rfl)
          have s2 := FloatField.C112_partial n true _ y hn ld hy (e ▸ nx) (.inl rfl)
          rw [e, s2] at s1
          injection s1 with s1
          exact s1.symm
      · intro h
        rw [h, hy] at hx
        injection hx with hx
        injection hx with hx
        subst hx
        cases y with
        | nan neg => exact absurd rfl (nx neg)
        | inf neg => exact .num _ _ _ ((denotes_float ex _).mpr (.inf neg)) ((denotes_float ey _).mpr (.inf neg))
        | fin neg q =>
          exact .num _ _ _ ((denotes_float ex _).mpr (denotes_of_fin neg q)) ((denotes_float ey _).mpr (denotes_of_fin neg q))

/-- Arrays of messages are equal just if they hold the same message objects. -/
theorem C144_compound (a b : Arr) (ha : a.Wf) (hb : b.Wf) (hp : a.elem = .compound) (he : b.elem = .compound) :
    eq a (.arr b) = .ok true ↔ a.items = b.items := by
  have h := eq_iff a b ha hb (fun c d => c = d) (by
    intro i c d v w _ _ hc hd hv hw
    rw [hp] at hc hv
    rw [he] at hd hw
    cases c with
    | bits c => exact absurd hc (by simp [CellWf])
    | obj c =>
      cases d with
      | bits d => exact absurd hd (by simp [CellWf])
      | obj d =>
        simp only [read] at hv hw
        injection hv with hv
        injection hw with hw
        subst hv hw
        constructor
        · intro h; cases h; rfl
        · intro h; injection h with h; subst h; exact .obj _)
  have k := map_eq_iff id id a.items b.items
  simp only [List.map_id, id] at k
  rw [h, k]

/-! ## Looking for an object -/

theorem hits_of (p : Item → Bool) (vs : List Item) : ∃ hits : List Nat, hits.Nodup ∧ hits.length = vs.countP p ∧
    ∀ i, i ∈ hits ↔ ∃ w, vs[i]? = some w ∧ p w = true := by
  induction vs with
  | nil => exact ⟨[], List.nodup_nil, rfl, by simp⟩
  | cons a vs ih =>
    obtain ⟨hits, h1, h2, h3⟩ := ih
    have hn : (hits.map (· + 1)).Nodup := by
      unfold List.Nodup at *
      rw [List.pairwise_map]
      exact h1.imp fun h => by omega
    have hz : 0 ∉ hits.map (· + 1) := by simp
    by_cases ha : p a = true
    · refine ⟨0 :: hits.map (· + 1), List.nodup_cons.mpr ⟨hz, hn⟩, by simp [ha, h2], fun i => ?_⟩
      cases i with
      | zero => simp [ha]
      | succ i => simpa using h3 i
    · refine ⟨hits.map (· + 1), hn, by simp [ha, h2], fun i => ?_⟩
      cases i with
      | zero => simp [ha]
      | succ i => simpa using h3 i

theorem indexFrom_spec (e : Elem) (v : Item) (cs : List Cell) (vs : List Item) (h : readAll e cs = .ok vs) (k : Nat) :
    (∀ i, indexFrom e v k cs = .ok i ↔ ∃ j, i = k + j ∧ (∃ w, vs[j]? = some w ∧ Alike w v) ∧
      ∀ (l : Nat) (w : Item), l < j → vs[l]? = some w → ¬ Alike w v) ∧
    (indexFrom e v k cs = .error .valueError ↔ ∀ w ∈ vs, ¬ Alike w v) := by
  induction cs generalizing vs k with
  | nil =>
    simp only [readAll, Except.ok.injEq] at h
    subst h
    simp [indexFrom]
  | cons c cs ih =>
    simp only [readAll] at h
    split at h
    · cases h
    · rename_i x hx
      split at h
      · cases h
      · rename_i xs hxs
        injection h with h
        subst h
        obtain ⟨i1, i2⟩ := ih xs hxs (k + 1)
        simp only [indexFrom, hx]
        by_cases hv : itemEq x v = true
        · have av := (itemEq_iff x v).mp hv
          rw [if_pos hv]
          constructor
          · intro i
            constructor
            · intro hi
              injection hi with hi
              subst hi
              exact ⟨0, rfl, ⟨x, by simp, av⟩, fun l w hl => absurd hl (by omega)⟩
            · rintro ⟨j, rfl, _, hj⟩
              cases j with
              | zero => rfl
              | succ j => exact absurd av (hj 0 x (by omega) (by simp))
          · constructor
            · intro h; cases h
            · intro h; exact absurd av (h x (by simp))
        · have av : ¬ Alike x v := fun h => hv ((itemEq_iff x v).mpr h)
          rw [if_neg hv]
          constructor
          · intro i
            rw [i1]
            constructor
            · rintro ⟨j, rfl, ⟨w, hw, ha⟩, hj⟩
              refine ⟨j + 1, by omega, ⟨w, by simpa using hw, ha⟩, fun l u hl hu => ?_⟩
              cases l with
              | zero =>
                simp only [List.getElem?_cons_zero, Option.some.injEq] at hu
                exact hu ▸ av
              | succ l => exact hj l u (by omega) (by simpa using hu)
            · rintro ⟨j, rfl, ⟨w, hw, ha⟩, hj⟩
              cases j with
              | zero =>
                simp only [List.getElem?_cons_zero, Option.some.injEq] at hw
                exact absurd (hw ▸ ha) av
              | succ j =>
                exact ⟨j, by omega, ⟨w, by simpa using hw, ha⟩, fun l u hl hu => hj (l + 1) u (by omega) (by simpa using hu)⟩
          · rw [i2]
            simp [av]

/-- `v in a`, `a.count(v)` and `a.index(v)` tell whether, how often and where first there is an element like `v`; `index` raises
`ValueError` if there is none. -/
theorem C144_search (a : Arr) (ha : a.Wf) (v : Item) : ∃ vs : List Item, vs.length = a.items.length ∧
    (∀ (i : Nat) (w : Item), vs[i]? = some w ↔ getItem a (i : Int) = .ok w) ∧
    (∃ r, contains a v = .ok r ∧ (r = true ↔ ∃ w ∈ vs, Alike w v)) ∧
    (∃ n, count a v = .ok n ∧ ∃ hits : List Nat, hits.Nodup ∧ hits.length = n ∧ ∀ i, i ∈ hits ↔ ∃ w, vs[i]? = some w ∧ Alike w v) ∧
    (∀ i, index a v = .ok i ↔ (∃ w, vs[i]? = some w ∧ Alike w v) ∧ ∀ (j : Nat) (w : Item), j < i → vs[j]? = some w → ¬ Alike w v) ∧
    (index a v = .error .valueError ↔ ∀ w ∈ vs, ¬ Alike w v) := by
  obtain ⟨vs, h1, h2, h3⟩ := ha.items
  obtain ⟨i1, i2⟩ := indexFrom_spec a.elem v a.items vs h1 0
  refine ⟨vs, h2, h3, ⟨vs.any fun w => itemEq w v, by simp only [contains, h1], ?_⟩,
    ⟨vs.countP fun w => itemEq w v, by simp only [count, h1], ?_⟩, fun i => ?_, i2⟩
  · rw [List.any_eq_true]
    simp only [itemEq_iff]
  · obtain ⟨hits, k1, k2, k3⟩ := hits_of (fun w => itemEq w v) vs
    exact ⟨hits, k1, k2, fun i => by rw [k3]; simp only [itemEq_iff]⟩
  · refine (i1 i).trans ⟨?_, fun h => ⟨i, by omega, h⟩⟩
    rintro ⟨j, rfl, h⟩
    simpa using h

/-! ## What was assigned -/

/-- The integers of a type. -/
def InRange (p : PrimTy) (x : Int) : Prop :=
  match p.kind with
  | .boolean => x = 0 ∨ x = 1
  | .unsigned => 0 ≤ x ∧ x < 2 ^ p.bitlen
  | .signed => -2 ^ (p.bitlen - 1) ≤ x ∧ x < 2 ^ (p.bitlen - 1)
  | .float => False

/-- The floats of a format. A saturated element does not hold infinities. -/
def Exact (n : Nat) (truncated : Bool) : PyFloat → Prop
  | .fin _ q => Representable n q
  | .inf _ => truncated = true
  | .nan _ => False

theorem writeAll_spec (e : Elem) (xs : List Num) (cs : List Cell) (h : writeAll e xs = .ok cs) :
    cs.length = xs.length ∧ ∀ (i : Nat) (x : Num) (c : Cell), xs[i]? = some x → cs[i]? = some c → write e x = .ok c := by
  induction xs generalizing cs with
  | nil =>
    simp only [writeAll, Except.ok.injEq] at h
    subst h
    simp
  | cons x xs ih =>
    simp only [writeAll] at h
    split at h
    · cases h
    · rename_i c hc
      split at h
      · cases h
      · rename_i ds hds
        injection h with h
        subst h
        obtain ⟨h1, h2⟩ := ih ds hds
        refine ⟨by simp [h1], fun i y d hy hd => ?_⟩
        cases i with
        | zero =>
          simp only [List.getElem?_cons_zero, Option.some.injEq] at hy hd
          subst hy hd
          exact hc
        | succ i => exact h2 i y d (by simpa using hy) (by simpa using hd)

/-- An array that was assigned a list of numbers is equal to the list just if every number is read as it was written. -/
theorem eq_assigned (e : Elem) (d : Bool) (xs : List Num) (cs : List Cell) (h : writeAll e xs = .ok cs)
    (P : Num → Prop) (hP : ∀ x c, x ∈ xs → write e x = .ok c → ∃ v, read e c = .ok v ∧ (Alike v (.num x) ↔ P x)) :
    eq ⟨e, d, cs⟩ (.list (xs.map .num)) = .ok true ↔ ∀ x ∈ xs, P x := by
  obtain ⟨hl, hi⟩ := writeAll_spec e xs cs h
  have hr : (Arr.mk e d cs).Readable := by
    intro c hc
    obtain ⟨i, hc'⟩ := List.getElem?_of_mem hc
    have hlt := (List.getElem?_eq_some_iff.mp hc').1
    change i < cs.length at hlt
    have hx : xs[i]? = some (xs[i]'(by omega)) := List.getElem?_eq_getElem (by omega)
    obtain ⟨v, hv, _⟩ := hP _ c (List.mem_of_getElem? hx) (hi i _ c hx hc')
    exact ⟨v, hv⟩
  obtain ⟨r, h1, -, h2⟩ := eq_list ⟨e, d, cs⟩ hr (xs.map .num)
  rw [h1]
  simp only [Except.ok.injEq]
  rw [h2]
  constructor
  · rintro ⟨-, h⟩ x hx
    obtain ⟨i, hx'⟩ := List.getElem?_of_mem hx
    have hlt := (List.getElem?_eq_some_iff.mp hx').1
    obtain ⟨v, w, hv, hw, hvw⟩ := h i (by simpa using hlt)
    obtain ⟨c, hc, hr⟩ := (getItem_nat _ i v).mp hv
    simp only [List.getElem?_map, hx', Option.map_some, Option.some.injEq] at hw
    subst hw
    obtain ⟨v', hv', k⟩ := hP x c hx (hi i x c hx' hc)
    change read e c = .ok v at hr
    rw [hr] at hv'
    injection hv' with hv'
    subst hv'
    exact k.mp hvw
  · intro h
    refine ⟨by simp [hl], fun i hlt => ?_⟩
    have hlt : i < xs.length := by simpa using hlt
    have hc : cs[i]? = some (cs[i]'(by omega)) := List.getElem?_eq_getElem (by omega)
    have hx : xs[i]? = some xs[i] := List.getElem?_eq_getElem hlt
    obtain ⟨v, hv, k⟩ := hP _ _ (List.getElem_mem hlt) (hi i _ _ hx hc)
    exact ⟨v, .num xs[i], (getItem_nat _ i v).mpr ⟨_, hc, hv⟩, by simp [hx], k.mpr (h _ (List.getElem_mem hlt))⟩

theorem assignRead_exact (p : PrimTy) (h : (Elem.int p).Wf) (x : Int) : ∃ y, assignRead p x = .ok (some y) ∧ (y = x ↔ InRange p x) := by
  obtain ⟨k, n, t⟩ := p
  obtain ⟨h1, h2, h3, h4⟩ := h
  have hp := two_pow_pred n h2
  have hpp := two_pow_pos_int (n - 1)
  have hz : ((2 ^ n : Nat) : Int) = 2 ^ n := cast_two_pow _
  unfold InRange
  simp only at h1 h2 h3 h4 ⊢
  cases k with
  | boolean =>
    rw [h4 rfl]
    refine ⟨_, C03_boolean t x, ?_⟩
    simp only
    split <;> omega
  | unsigned =>
    cases t with
    | false => exact ⟨_, C03_unsigned_saturated n h2 x, by simp only; omega⟩
    | true =>
      refine ⟨_, C03_unsigned_truncated n h2 x, ?_⟩
      simp only
      have a1 := Int.emod_nonneg x (b := 2 ^ n) (by omega)
      have a2 := Int.emod_lt_of_pos x (b := 2 ^ n) (by omega)
      constructor
      · intro h; omega
      · rintro ⟨b1, b2⟩; exact Int.emod_eq_of_lt b1 b2
  | signed =>
    simp only
    cases t with
    | true =>
      refine ⟨_, C04_signed_truncated n h2 x, ?_⟩
      constructor
      · intro h
        have b1 := Int.le_bmod (x := x) (m := 2 ^ n) (by have := Nat.pow_pos (n := n) (show 0 < 2 by decide); omega)
        have b2 := Int.bmod_lt (x := x) (m := 2 ^ n) (by have := Nat.pow_pos (n := n) (show 0 < 2 by decide); omega)
        rw [h, hz] at b1 b2
        omega
      · rintro ⟨b1, b2⟩; exact bmod_eq_self n x h2 b1 b2
    | false =>
      by_cases hn : n ≤ 53
      · exact ⟨_, C04_signed_saturated_partial n h2 hn x, by omega⟩
      · by_cases hx : -2 ^ (n - 1) ≤ x ∧ x < 2 ^ (n - 1)
        · exact ⟨_, C04_signed_saturated_wide_partial n (by omega) h3 x hx.1 hx.2, by simp [hx]⟩
        · obtain ⟨c1, c2⟩ := C04_signed_saturated_counterexample n (by omega) h3 x
          by_cases h : 2 ^ (n - 1) ≤ x
          · exact ⟨_, c1 h, by omega⟩
          · exact ⟨_, c2 (by omega), by omega⟩
  | float => exact absurd rfl h1

/-- A list of integers that was assigned to an array of integers is equal to it just if all of them are in the range of the type. -/
theorem C144_assigned (p : PrimTy) (hp : (Elem.int p).Wf) (d : Bool) (xs : List Int) (cs : List Cell)
    (h : writeAll (.int p) (xs.map .int) = .ok cs) :
    eq ⟨.int p, d, cs⟩ (.list (xs.map fun x => .num (.int x))) = .ok true ↔ ∀ x ∈ xs, InRange p x := by
  have key := eq_assigned (.int p) d (xs.map .int) cs h (fun y => ∀ x, y = .int x → InRange p x) (by
    intro y c hy hc
    obtain ⟨x, hx, rfl⟩ := List.mem_map.mp hy
    simp only [write] at hc
    split at hc
    · rename_i b hb
      injection hc with hc
      subst hc
      obtain ⟨z, hz, hzx⟩ := assignRead_exact p hp x
      unfold assignRead at hz
      rw [hb] at hz
      injection hz with hz
      have hb0 : b ≠ [] := by rintro rfl; simp [getInt] at hz
      refine ⟨.num (.int z), by simp [read, hb0, hz], ?_⟩
      constructor
      · intro ha
        cases ha with
        | num _ _ q h1 h2 =>
          have := Rat.intCast_inj.mp (rat_inj ((denotes_int h1).symm.trans (denotes_int h2)))
          rintro x' hx'
          injection hx' with hx'
          subst hx'
          exact hzx.mp this
      · intro ha
        rw [hzx.mpr (ha x rfl)]
        exact .num _ _ _ (.int x) (.int x)
    · cases hc)
  rw [List.map_map] at key
  refine key.trans ⟨fun h x hx => h (.int x) (List.mem_map.mpr ⟨x, hx, rfl⟩) x rfl, ?_⟩
  rintro h y hy x rfl
  obtain ⟨x', hx', e⟩ := List.mem_map.mp hy
  injection e with e
  subst e
  exact h x' hx'

theorem alike_fin (neg : Bool) (y q : Rat) : Alike (.num (.float (.fin neg y))) (.num (.float (.fin neg q))) ↔ y = q := by
  constructor
  · intro h
    cases h with
    | num _ _ v h1 h2 =>
      have := rat_inj ((denotes_fin h1).symm.trans (denotes_fin h2))
      cases neg <;> simp only [Bool.false_eq_true, if_true, if_false] at this
      · exact this
      · grind
  · rintro rfl
    exact .num _ _ _ (denotes_of_fin neg y) (denotes_of_fin neg y)

theorem not_alike_inf (neg neg' : Bool) (q : Rat) : ¬ Alike (.num (.float (.inf neg))) (.num (.float (.fin neg' q))) := by
  intro h
  cases h with
  | num _ _ v h1 h2 =>
    have := (denotes_inf h1).symm.trans (denotes_fin h2)
    cases this

theorem float_exact (n : Nat) (hn : n = 16 ∨ n = 32 ∨ n = 64) (t : Bool) (x : PyFloat) (hx : IsFloat x) :
    ∃ r, FloatField.assignRead n t (.float x) = .ok (some r) ∧ (Alike (.num (.float r)) (.num (.float x)) ↔ Exact n t x) := by
  have hx0 : ∀ neg q, x = .fin neg q → 0 ≤ q := by
    rintro neg q rfl
    obtain ⟨m, e, -, -, -, rfl⟩ := hx
    exact Rat.mul_nonneg (by exact_mod_cast Nat.zero_le m) (Rat.le_of_lt (Float16.zpos e))
  have key : ∃ r, FloatField.assignRead n t (.float x) = .ok (some r) ∧
      match x with
      | .nan neg => r = .nan neg
      | .inf neg => r = FloatField.beyond n t neg
      | .fin neg q => if q ≤ largest n then ∃ y, r = .fin neg y ∧ Representable n y ∧ (Representable n q → y = q)
        else r = FloatField.beyond n t neg := by
    by_cases h16 : n = 16
    · subst h16
      obtain ⟨r, h1, h2⟩ := FloatField.C111_half t x hx0
      refine ⟨r, h1, ?_⟩
      cases x with
      | nan neg => exact h2
      | inf neg => exact h2
      | fin neg q =>
        simp only [FloatField.ExpectedHalf] at h2
        simp only
        split
        · rename_i hq
          rw [if_pos hq] at h2
          obtain ⟨s, y, h3, h4, h5, _⟩ := h2
          refine ⟨y, h3, h5.1, fun hr => ?_⟩
          have h32 : Representable 32 q := by
            obtain ⟨m, e, a1, a2, a3, a4⟩ := hr
            have a1 : m < 2 ^ 11 := a1
            have a2 : (-24 : Int) ≤ e := a2
            have a3 : e ≤ 5 := a3
            exact ⟨m, e, (show m < 2 ^ 24 by omega), (show (-149 : Int) ≤ e by omega), (show e ≤ 104 by omega), a4⟩
          have hs := FloatField.nearest_self _ _ _ h32 h4.1
          subst hs
          exact FloatField.nearest_self _ _ _ hr h5
        · rename_i hq
          rwa [if_neg hq] at h2
    · obtain ⟨r, h1, h2⟩ := FloatField.C111_wide n (by omega) t x hx0
      refine ⟨r, h1, ?_⟩
      cases x with
      | nan neg => exact h2
      | inf neg => exact h2
      | fin neg q =>
        simp only [FloatField.ExpectedEven] at h2
        simp only
        split
        · rename_i hq
          rw [if_pos hq] at h2
          obtain ⟨y, h3, h4⟩ := h2
          exact ⟨y, h3, h4.1.1, fun hr => FloatField.nearest_self _ _ _ hr h4.1⟩
        · rename_i hq
          rwa [if_neg hq] at h2
  obtain ⟨r, h1, h2⟩ := key
  refine ⟨r, h1, ?_⟩
  cases x with
  | nan neg =>
    simp only [Exact, iff_false]
    intro h
    cases h with
    | num _ _ v _ h => cases h
  | inf neg =>
    simp only at h2
    subst h2
    cases t with
    | true =>
      simp only [Exact, iff_true, FloatField.beyond, if_true]
      exact .num _ _ _ (.inf neg) (.inf neg)
    | false =>
      simp only [Exact, FloatField.beyond, Bool.false_eq_true, if_false, iff_false]
      intro h
      exact not_alike_inf _ _ _ h.symm
  | fin neg q =>
    simp only at h2
    simp only [Exact]
    split at h2
    · obtain ⟨y, rfl, hy, hq⟩ := h2
      rw [alike_fin]
      exact ⟨fun h => h ▸ hy, hq⟩
    · rename_i hq
      have hn : ¬ Representable n q := fun h => hq (FloatField.representable_le n q h).2
      simp only [hn, iff_false]
      subst h2
      unfold FloatField.beyond
      split
      · exact not_alike_inf _ _ _
      · rw [alike_fin]
        intro h
        exact hq (by rw [h]; exact Rat.le_refl)

/-- A list of floats that was assigned to an array of floats is equal to it just if all of them are floats of the format; in particular none
is NaN. -/
theorem C144_assigned_float (n : Nat) (hn : n = 16 ∨ n = 32 ∨ n = 64) (t d : Bool) (xs : List PyFloat) (hx : ∀ x ∈ xs, IsFloat x)
    (cs : List Cell) (h : writeAll (.float n t) (xs.map .float) = .ok cs) :
    eq ⟨.float n t, d, cs⟩ (.list (xs.map fun x => .num (.float x))) = .ok true ↔ ∀ x ∈ xs, Exact n t x := by
  have key := eq_assigned (.float n t) d (xs.map .float) cs h (fun y => ∀ x, y = .float x → Exact n t x) (by
    intro y c hy hc
    obtain ⟨x, hxm, rfl⟩ := List.mem_map.mp hy
    simp only [write] at hc
    split at hc
    · rename_i b hb
      injection hc with hc
      subst hc
      obtain ⟨z, hz, hzx⟩ := float_exact n hn t x (hx x hxm)
      have hz : FloatField.get n b = .ok (some z) := by
        simpa [FloatField.assignRead, hb, bind, Except.bind] using hz
      have hb0 : b ≠ [] := by rintro rfl; simp [FloatField.get] at hz
      refine ⟨.num (.float z), by simp [read, hb0, hz], hzx.trans ⟨?_, fun h => h x rfl⟩⟩
      rintro h x' hx'
      injection hx' with hx'
      subst hx'
      exact h
    · cases hc)
  rw [List.map_map] at key
  refine key.trans ⟨fun h x hx => h (.float x) (List.mem_map.mpr ⟨x, hx, rfl⟩) x rfl, ?_⟩
  rintro h y hy x rfl
  obtain ⟨x', hx', e⟩ := List.mem_map.mp hy
  injection e with e
  subst e
  exact h x' hx'

/-! ## What is wrong with the statement -/

/-- An array has a text if it is a dynamic array of 8-bit integers that are the UTF-8 form of the text. -/
def HasText (a : Arr) (s : List Nat) : Prop := a.dynamic = true ∧ (∃ p, a.elem = .int p ∧ p.bitlen = 8) ∧
  ∃ bytes, Utf8.Says s bytes ∧ bytes.length = a.items.length ∧
    ∀ (i b : Nat), bytes[i]? = some b → getItem a (i : Int) = .ok (.num (.int (b : Int)))

theorem numbers_map (p : PrimTy) (hp : p.kind ≠ .float) (cs : List Cell) (hc : ∀ c ∈ cs, ∃ b, c = .bits b ∧ b ≠ []) :
    ∃ xs : List Int, TextField.numbers p (cs.map cellVal) = xs ∧ xs.length = cs.length ∧
      ∀ (i : Nat) (c : Cell), cs[i]? = some c → ∃ x, xs[i]? = some x ∧ read (.int p) c = .ok (.num (.int x)) := by
  induction cs with
  | nil => exact ⟨[], rfl, rfl, by simp⟩
  | cons c cs ih =>
    obtain ⟨xs, h1, h2, h3⟩ := ih fun d hd => hc d (by simp [hd])
    obtain ⟨b, rfl, hb⟩ := hc c (by simp)
    obtain ⟨x, hx⟩ := getInt_ok p hp b hb
    refine ⟨x :: xs, ?_, by simp [h2], fun i d hd => ?_⟩
    · rw [← h1]
      simp [TextField.numbers, cellVal, hx]
    · cases i with
      | zero =>
        simp only [List.getElem?_cons_zero, Option.some.injEq] at hd
        subst hd
        exact ⟨x, by simp, by simp [read, hb, hx]⟩
      | succ i => simpa using h3 i d (by simpa using hd)

/-- Decoding gives the text that an array has, if all elements have been set; it raises `ValueError` if there is none. -/
theorem decode_iff (a : Arr) (ha : a.Wf) (hs : ∀ c ∈ a.items, c ≠ .bits []) :
    (∀ s, decode a = .ok s ↔ HasText a s) ∧ ((∀ s, ¬ HasText a s) → decode a = .error .valueError) := by
  have hraise : (∃ s, decode a = .ok s) ∨ decode a = .error .valueError := by
    unfold decode
    split
    · unfold TextField.decode
      split
      · unfold TextField.toBytes
        split
        · rename_i e h
          split at h
          · cases h
          · injection h with h; subst h; exact .inr rfl
        · split
          · exact .inl ⟨_, rfl⟩
          · exact .inr rfl
      · exact .inr rfl
    · exact .inr rfl
  have main : ∀ s, decode a = .ok s ↔ HasText a s := by
    intro s
    obtain ⟨e, d, cs⟩ := a
    obtain ⟨he, hc⟩ := ha
    change ∀ c ∈ cs, c ≠ .bits [] at hs
    change ∀ c ∈ cs, CellWf e c at hc
    change e.Wf at he
    cases e with
    | float n t =>
      refine ⟨fun h => by simp [decode] at h, ?_⟩
      rintro ⟨_, ⟨p, h, _⟩, _⟩
      cases h
    | compound =>
      refine ⟨fun h => by simp [decode] at h, ?_⟩
      rintro ⟨_, ⟨p, h, _⟩, _⟩
      cases h
    | int p =>
      by_cases h8 : d = true ∧ p.bitlen = 8
      · obtain ⟨rfl, h8⟩ := h8
        have hp : TextField.Char8 p := by
          obtain ⟨k, n, t⟩ := p
          obtain ⟨k1, _, _, k4⟩ := he
          simp only at h8 k1 k4
          subst h8
          cases k with
          | boolean => exact absurd (k4 rfl) (by decide)
          | float => exact absurd rfl k1
          | unsigned => exact ⟨rfl, .inl rfl⟩
          | signed => exact ⟨rfl, .inr rfl⟩
        obtain ⟨xs, n1, n2, n3⟩ := numbers_map p he.1 cs (fun c h => by
          have w := hc c h
          cases c with
          | obj id => exact absurd w (by simp [CellWf])
          | bits b => exact ⟨b, rfl, fun e => hs _ h (by rw [e])⟩)
        simp only [decode]
        rw [TextField.C123_decode p hp]
        constructor
        · rintro ⟨bytes, hb, hsay⟩
          refine ⟨rfl, ⟨p, rfl, h8⟩, bytes, hsay, ?_⟩
          unfold TextField.toBytes at hb
          split at hb
          · rename_i hall
            injection hb with hb
            rw [n1] at hb hall
            subst hb
            refine ⟨by simpa using n2, fun i b hi => ?_⟩
            simp only [List.getElem?_map, Option.map_eq_some_iff] at hi
            obtain ⟨x, hx, rfl⟩ := hi
            have hlt : i < cs.length := by have := (List.getElem?_eq_some_iff.mp hx).1; omega
            have hcell : cs[i]? = some cs[i] := List.getElem?_eq_getElem hlt
            obtain ⟨x', hx', hr⟩ := n3 i _ hcell
            rw [hx] at hx'
            injection hx' with hx'
            subst hx'
            have hbound := List.all_eq_true.mp hall x (List.mem_of_getElem? hx)
            simp only [Bool.and_eq_true, decide_eq_true_eq] at hbound
            rw [Int.toNat_of_nonneg hbound.1]
            exact (getItem_nat _ i _).mpr ⟨_, hcell, hr⟩
          · cases hb
        · rintro ⟨-, -, bytes, hsay, hl, hb⟩
          change bytes.length = cs.length at hl
          have e : xs = bytes.map Int.ofNat := by
            apply List.ext_getElem?
            intro i
            by_cases hlt : i < cs.length
            · have hcell : cs[i]? = some cs[i] := List.getElem?_eq_getElem hlt
              obtain ⟨x, hx, hr⟩ := n3 i _ hcell
              have hbi : bytes[i]? = some (bytes[i]'(by omega)) := List.getElem?_eq_getElem (by omega)
              obtain ⟨c, hc', hr'⟩ := (getItem_nat _ i _).mp (hb i _ hbi)
              change cs[i]? = some c at hc'
              rw [hcell] at hc'
              injection hc' with hc'
              subst hc'
              change read (.int p) _ = _ at hr'
              rw [hr] at hr'
              injection hr' with hr'
              injection hr' with hr'
              injection hr' with hr'
              rw [hx, List.getElem?_map, hbi, hr']
              rfl
            · rw [List.getElem?_eq_none (by omega), List.getElem?_eq_none (by simp; omega)]
          refine ⟨bytes, ?_, hsay⟩
          unfold TextField.toBytes
          rw [n1, e]
          have hlt : ∀ b ∈ bytes, b < 256 := Utf8.says_byte hsay
          rw [if_pos]
          · rw [List.map_map, show Int.toNat ∘ Int.ofNat = id from rfl, List.map_id]
          · rw [List.all_eq_true]
            intro x hx
            obtain ⟨b, hb, rfl⟩ := List.mem_map.mp hx
            have := hlt b hb
            simp only [Bool.and_eq_true, decide_eq_true_eq, Int.ofNat_eq_natCast]
            omega
      · constructor
        · intro h
          exfalso
          simp only [decode] at h
          rw [(TextField.C123_other p d 0 [] _ (by
            cases d
            · exact .inl rfl
            · exact .inr fun e => h8 ⟨rfl, e⟩)).2.1] at h
          cases h
        · rintro ⟨hd, ⟨p', hp', h8'⟩, _⟩
          injection hp' with hp'
          subst hp'
          exact absurd ⟨hd, h8'⟩ h8
  refine ⟨main, fun h => ?_⟩
  rcases hraise with ⟨s, hs⟩ | h'
  · exact absurd ((main s).mp hs) (h s)
  · exact h'

/-- An array is equal to a text just if it has this text; if it has none, comparing raises `ValueError`. -/
theorem C144_text (a : Arr) (ha : a.Wf) (hs : ∀ c ∈ a.items, c ≠ .bits []) (s : List Nat) :
    (eq a (.text s) = .ok true ↔ HasText a s) ∧ ((∃ t, HasText a t) → ∃ r, eq a (.text s) = .ok r) ∧
    ((∀ t, ¬ HasText a t) → eq a (.text s) = .error .valueError) := by
  obtain ⟨h1, h2⟩ := decode_iff a ha hs
  refine ⟨?_, ?_, ?_⟩
  · rw [← h1]
    unfold eq
    cases decode a with
    | ok t => simp
    | error e => simp
  · rintro ⟨t, ht⟩
    simp only [eq, (h1 t).mpr ht]
    exact ⟨_, rfl⟩
  · intro h
    simp only [eq, h2 h]

/-- Comparing an array that has no text with a text raises. -/
theorem C144_text_counterexample : eq ⟨.int ⟨.unsigned, 16, false⟩, true, []⟩ (.text [65]) = .error .valueError ∧
    eq ⟨.int ⟨.unsigned, 8, false⟩, true, [.bits (formatBin 8 0xFF)]⟩ (.text [65]) = .error .valueError := by decide +kernel

/-- An array that contains NaN is not equal to itself, nor to the list it was assigned. -/
theorem C144_nan_counterexample (neg : Bool) : ∃ cs, writeAll (.float 32 false) [.float (.nan neg)] = .ok cs ∧
    (Arr.mk (.float 32 false) true cs).Wf ∧ eq ⟨.float 32 false, true, cs⟩ (.arr ⟨.float 32 false, true, cs⟩) = .ok false ∧
    eq ⟨.float 32 false, true, cs⟩ (.list [.num (.float (.nan neg))]) = .ok false := by
  cases neg
  · exact ⟨[.bits (formatBin 32 0x7FC00000)], by decide +kernel, ⟨.inr (.inl rfl), fun c hc => by
      rw [List.mem_singleton.mp hc]; exact .inr (by decide +kernel)⟩, by decide +kernel, by decide +kernel⟩
  · exact ⟨[.bits (formatBin 32 0xFFC00000)], by decide +kernel, ⟨.inr (.inl rfl), fun c hc => by
      rw [List.mem_singleton.mp hc]; exact .inr (by decide +kernel)⟩, by decide +kernel, by decide +kernel⟩

/-- Zeros of either sign are equal, but not sent as the same. -/
theorem C144_zero_counterexample (content : Nat → Bits) :
    eq ⟨.float 16 false, true, [.bits (formatBin 16 0)]⟩ (.arr ⟨.float 16 false, true, [.bits (formatBin 16 0x8000)]⟩) = .ok true ∧
    sent content (.float 16 false) (.bits (formatBin 16 0)) ≠ sent content (.float 16 false) (.bits (formatBin 16 0x8000)) := by
  refine ⟨by decide +kernel, ?_⟩
  rw [sent_float content 16 false (.bits (formatBin 16 0)) (Or.inr (by decide +kernel)),
    sent_float content 16 false (.bits (formatBin 16 0x8000)) (Or.inr (by decide +kernel))]
  decide +kernel

/-- Arrays of different message objects are different even if the messages have the same contents. -/
theorem C144_copy_counterexample (i j : Nat) (h : i ≠ j) (content : Nat → Bits) (hc : content i = content j) :
    eq ⟨.compound, true, [.obj i]⟩ (.arr ⟨.compound, true, [.obj j]⟩) = .ok false ∧
    [Cell.obj i].map (sent content .compound) = [Cell.obj j].map (sent content .compound) := by
  refine ⟨?_, by simp [sent, hc]⟩
  simp [eq, eqList, readAll, read, listEq, itemEq]
  exact fun e => h e.symm

theorem C144_counterexample : ¬ C144_statement := by
  rintro ⟨_, h, _⟩
  obtain ⟨cs, _, hw, he, _⟩ := C144_nan_counterexample false
  have := h _ hw
  rw [he] at this
  cases this

/-! ## Examples -/

/-- `[1, 2] == field` for a field that was set to `[1, 2]`, with floats in the list; `field == (1, 2)` is false. -/
example : writeAll (.int ⟨.signed, 8, false⟩) [.int 1, .int (-2)] = .ok [.bits (formatBin 8 1), .bits (formatBin 8 254)] ∧
    eq ⟨.int ⟨.signed, 8, false⟩, true, [.bits (formatBin 8 1), .bits (formatBin 8 254)]⟩
      (.list [.num (.float (.fin false 1)), .num (.int (-2))]) = .ok true ∧
    eq ⟨.int ⟨.signed, 8, false⟩, true, [.bits (formatBin 8 1), .bits (formatBin 8 254)]⟩ .other = .ok false ∧
    index ⟨.int ⟨.signed, 8, false⟩, true, [.bits (formatBin 8 1), .bits (formatBin 8 254)]⟩ (.num (.int (-2))) = .ok 1 ∧
    count ⟨.int ⟨.signed, 8, false⟩, true, [.bits (formatBin 8 1), .bits []]⟩ (.num (.int 0)) = .ok 1 := by decide +kernel

/-- 0.1 is not a number of single precision: a field that was set to `[0.1]` is not equal to `[0.1]`. -/
example (q : Rat) (hq : q = 3602879701896397 / 36028797018963968) : ∃ cs, writeAll (.float 32 false) [.float (.fin false q)] = .ok cs ∧
    eq ⟨.float 32 false, true, cs⟩ (.list [.num (.float (.fin false q))]) = .ok false := by
  subst hq
  exact ⟨[.bits (formatBin 32 0x3DCCCCCD)], by decide +kernel, by decide +kernel⟩

end Equality
end Dronecan
