import Verif.Proofs.Compound
import Verif.Props.Codec

/-!
# C11: unions have a single active field; C06/C10: objects built through the API are well formed
-/

namespace Dronecan

/-- C11, one operation: once field `j` of a union is active, an operation that goes through another field `i` raises
`AttributeError` and changes nothing. -/
theorem C11_other_field_refused (fs : List Ty) (vs : List Val) (hlen : vs.length = fs.length) (j i : Nat) (hij : i ≠ j)
    (path : List PathStep) (op : ObjOp) (hi : firstAttr path op = some i) (hlt : i < fs.length) :
    access (.comp true fs) (.comp (some j) vs) path op = (.error .attributeError, .comp (some j) vs) := by
  have hf : fs[i]? = some fs[i] := List.getElem?_eq_getElem hlt
  have hw : vs[i]? = some (vs[i]'(by omega)) := List.getElem?_eq_getElem (by omega)
  have hto : touch true (some j) i = .error .attributeError := by
    simp [touch, show j ≠ i from fun e => hij e.symm]
  cases path with
  | nil =>
    cases op with
    | get k => simp only [firstAttr, Option.some.injEq] at hi; subst hi; simp only [access, execOp, hf, hw, hto]
    | set k a => simp only [firstAttr, Option.some.injEq] at hi; subst hi; simp only [access, execOp, hf, hw, hto]
    | switch o => simp [firstAttr] at hi
    | decode s t => simp [firstAttr] at hi
    | arr o => simp [firstAttr] at hi
  | cons st path =>
    cases st with
    | field k => simp only [firstAttr, Option.some.injEq] at hi; subst hi; simp only [access, hf, hw, hto]
    | item k => simp [firstAttr] at hi

/-- What an operation does to the outermost union object: the number of fields stays, the active field is as specified by
`chosenAfter`, and only the field that was accessed (or decoded) can change. -/
theorem access_union (fs : List Ty) (c : Option Nat) (vs : List Val) (hlen : vs.length = fs.length)
    (path : List PathStep) (op : ObjOp) :
    ∃ vs', (access (.comp true fs) (.comp c vs) path op).2 = .comp (chosenAfter fs.length c (path, op)) vs' ∧
      vs'.length = fs.length ∧ ∀ i, some i ≠ chosenAfter fs.length c (path, op) → vs'[i]? = vs[i]? := by
  have touchCase : ∀ i, i < fs.length → (∃ a, touch true c i = .ok a) → touch true c i = .ok (some i) ∧
      chooseFirst fs.length c (some i) = some i := by
    intro i hi ⟨a, ha⟩
    have := touch_ok ha
    simp only [if_true] at this
    subst this
    refine ⟨ha, ?_⟩
    cases c with
    | none => simp [chooseFirst, hi]
    | some j =>
      simp only [touch, if_true] at ha
      split at ha
      · cases ha
      · rename_i hji; simpa [chooseFirst] using hji
  have errCase : ∀ i e, i < fs.length → touch true c i = .error e →
      chooseFirst fs.length c (some i) = c := by
    intro i e hi he
    cases c with
    | none => simp [touch] at he
    | some j => rfl
  have outCase : ∀ i, ¬ i < fs.length →
      chooseFirst fs.length c (some i) = c := by
    intro i hi
    cases c with
    | none => simp [chooseFirst, hi]
    | some j => rfl
  have setOther : ∀ (k : Nat) (w : Val) (i : Nat), some i ≠ some k → (vs.set k w)[i]? = vs[i]? := by
    intro k w i h
    rw [List.getElem?_set_ne]
    intro e; exact h (by rw [e])
  cases path with
  | nil =>
    cases op with
    | get k =>
      simp only [access, execOp, chosenAfter, firstAttr]
      by_cases hk : k < fs.length
      · have hf : fs[k]? = some fs[k] := List.getElem?_eq_getElem hk
        have hw : vs[k]? = some (vs[k]'(by omega)) := List.getElem?_eq_getElem (by omega)
        simp only [hf, hw]
        cases hto : touch true c k with
        | error e => exact ⟨vs, by simp only; rw [errCase k e hk hto], hlen, fun i _ => rfl⟩
        | ok a =>
          obtain ⟨h1, h2⟩ := touchCase k hk ⟨a, hto⟩
          rw [hto] at h1
          simp only [Except.ok.injEq] at h1
          subst h1
          exact ⟨vs, by simp only; rw [h2], hlen, fun i _ => rfl⟩
      · have hf : fs[k]? = none := List.getElem?_eq_none (by omega)
        simp only [hf]
        exact ⟨vs, by rw [outCase k hk], hlen, fun i _ => rfl⟩
    | set k a =>
      simp only [access, execOp, chosenAfter, firstAttr]
      by_cases hk : k < fs.length
      · have hf : fs[k]? = some fs[k] := List.getElem?_eq_getElem hk
        have hw : vs[k]? = some (vs[k]'(by omega)) := List.getElem?_eq_getElem (by omega)
        simp only [hf, hw]
        cases hto : touch true c k with
        | error e => exact ⟨vs, by simp only; rw [errCase k e hk hto], hlen, fun i _ => rfl⟩
        | ok act =>
          obtain ⟨h1, h2⟩ := touchCase k hk ⟨act, hto⟩
          rw [hto] at h1
          simp only [Except.ok.injEq] at h1
          subst h1
          simp only
          cases hc : assignField fs[k] vs[k] a with
          | mk r w =>
            refine ⟨vs.set k w, ?_, by simp [hlen], ?_⟩
            · rw [h2]; cases r <;> rfl
            · rw [h2]; exact setOther k w
      · have hf : fs[k]? = none := List.getElem?_eq_none (by omega)
        simp only [hf]
        exact ⟨vs, by rw [outCase k hk], hlen, fun i _ => rfl⟩
    | switch o => exact ⟨vs, by simp [access, execOp, chosenAfter], hlen, fun i _ => rfl⟩
    | decode s tao =>
      simp only [access, execOp, chosenAfter, decodeInto, if_true]
      by_cases hs : s.take (unionTagBits fs.length) = []
      · simp only [hs, if_true]
        exact ⟨vs, by simp, hlen, fun i _ => rfl⟩
      · simp only [hs, if_false]
        by_cases hlt : natOfBits (s.take (unionTagBits fs.length)) < fs.length
        · rw [List.getElem?_eq_getElem hlt]
          simp only [ne_eq, hs, not_false_eq_true, hlt, and_self, if_true]
          cases hc : unpack fs[natOfBits (s.take (unionTagBits fs.length))] (s.drop (unionTagBits fs.length)) tao with
          | error e => exact ⟨vs, rfl, hlen, fun i _ => rfl⟩
          | ok p =>
            obtain ⟨w, r⟩ := p
            exact ⟨_, rfl, by simp [hlen], setOther _ w⟩
        · rw [List.getElem?_eq_none (by omega)]
          exact ⟨vs, by simp [hlt], hlen, fun i _ => rfl⟩
    | arr o => exact ⟨vs, by cases c <;> simp [access, execOp, chosenAfter, chooseFirst, firstAttr], hlen, fun i _ => rfl⟩
  | cons st path =>
    cases st with
    | item k => exact ⟨vs, by cases c <;> simp [access, chosenAfter, chooseFirst, firstAttr], hlen, fun i _ => rfl⟩
    | field k =>
      simp only [access, chosenAfter, firstAttr]
      by_cases hk : k < fs.length
      · have hf : fs[k]? = some fs[k] := List.getElem?_eq_getElem hk
        have hw : vs[k]? = some (vs[k]'(by omega)) := List.getElem?_eq_getElem (by omega)
        simp only [hf, hw]
        cases hto : touch true c k with
        | error e => exact ⟨vs, by simp only; rw [errCase k e hk hto], hlen, fun i _ => rfl⟩
        | ok act =>
          obtain ⟨h1, h2⟩ := touchCase k hk ⟨act, hto⟩
          rw [hto] at h1
          simp only [Except.ok.injEq] at h1
          subst h1
          refine ⟨_, by rw [h2], by simp [hlen], ?_⟩
          rw [h2]; exact setOther k _
      · have hf : fs[k]? = none := List.getElem?_eq_none (by omega)
        simp only [hf]
        exact ⟨vs, by rw [outCase k hk], hlen, fun i _ => rfl⟩

/-- C11 over histories: after any sequence of operations on a union object (reads, writes, operations on nested objects,
explicit switches, decoding), the active field is the one the specification `chosenAfter` arrives at: the first field
accessed, unless switched or decoded since. -/
theorem C11_active_field (fs : List Ty) (h : List (List PathStep × ObjOp)) (c : Option Nat) (vs : List Val)
    (hlen : vs.length = fs.length) :
    ∃ vs', (objRun (.comp true fs) h (.comp c vs)).2 = .comp (h.foldl (chosenAfter fs.length) c) vs' ∧
      vs'.length = fs.length := by
  induction h generalizing c vs with
  | nil => exact ⟨vs, rfl, hlen⟩
  | cons s h ih =>
    obtain ⟨path, op⟩ := s
    obtain ⟨vs1, h1, h2, -⟩ := access_union fs c vs hlen path op
    simp only [objRun, List.foldl_cons]
    rw [h1]
    exact ih _ vs1 h2

/-- C11 over histories: while the union is neither switched nor overwritten by decoding, an active field stays active, the
contents of the other fields do not change, and every operation that went through another field raised
`AttributeError`. -/
theorem C11_stays_active (fs : List Ty) (h : List (List PathStep × ObjOp)) (j : Nat) (vs : List Val)
    (hlen : vs.length = fs.length) (hh : ∀ s ∈ h, (firstAttr s.1 s.2).isSome) :
    (∃ vs', (objRun (.comp true fs) h (.comp (some j) vs)).2 = .comp (some j) vs' ∧ vs'.length = fs.length ∧
      ∀ i, i ≠ j → vs'[i]? = vs[i]?) ∧
    ∀ (k : Nat) (s : List PathStep × ObjOp) (i : Nat), h[k]? = some s → firstAttr s.1 s.2 = some i → i ≠ j → i < fs.length →
      (objRun (.comp true fs) h (.comp (some j) vs)).1[k]? = some (.error .attributeError) := by
  induction h generalizing vs with
  | nil => exact ⟨⟨vs, rfl, hlen, fun i _ => rfl⟩, fun k s i hk => by simp at hk⟩
  | cons s h ih =>
    obtain ⟨path, op⟩ := s
    obtain ⟨vs1, h1, h2, h3⟩ := access_union fs (some j) vs hlen path op
    have hch : chosenAfter fs.length (some j) (path, op) = some j := by
      have := hh (path, op) (by simp)
      cases path with
      | nil => cases op <;> simp_all [chosenAfter, chooseFirst, firstAttr]
      | cons st path => cases st <;> simp [chosenAfter, chooseFirst]
    rw [hch] at h1 h3
    obtain ⟨⟨vs2, ha, hb, hc⟩, hd⟩ := ih vs1 h2 (fun s hs => hh s (by simp [hs]))
    simp only [objRun]
    rw [h1]
    refine ⟨⟨vs2, ha, hb, fun i hi => ?_⟩, ?_⟩
    · rw [hc i hi, h3 i (by simpa using hi)]
    · intro k s i hk hi hij hlt
      cases k with
      | zero =>
        simp only [List.getElem?_cons_zero, Option.some.injEq] at hk
        subst hk
        rw [C11_other_field_refused fs vs hlen j i hij path op hi hlt]
        simp
      | succ k =>
        have := hd k s i (by simpa using hk) hi hij hlt
        simpa using this

/-- C11, reading has a side effect: reading a field of a union with no active field makes that field active (and yields
it); reading the active field yields it again. -/
theorem C11_read_activates (fs : List Ty) (vs : List Val) (hlen : vs.length = fs.length) (i : Nat) (hi : i < fs.length)
    (c : Option Nat) (hc : c = none ∨ c = some i) :
    access (.comp true fs) (.comp c vs) [] (.get i) = (.ok (some (vs[i]'(by omega))), .comp (some i) vs) := by
  have hf : fs[i]? = some fs[i] := List.getElem?_eq_getElem hi
  have hw : vs[i]? = some (vs[i]'(by omega)) := List.getElem?_eq_getElem (by omega)
  have hto : touch true c i = .ok (some i) := by
    rcases hc with rfl | rfl <;> simp [touch]
  simp only [access, execOp, hf, hw, hto]

theorem packNth_getElem (fs : List Ty) (vs : List Val) (j : Nat) (hj : j < fs.length) (hlen : vs.length = fs.length)
    (tao : Bool) : packNth fs vs j tao = pack fs[j] (vs[j]'(by omega)) tao := by
  induction j generalizing fs vs with
  | zero =>
    cases fs with
    | nil => simp at hj
    | cons f fs =>
      cases vs with
      | nil => simp at hlen
      | cons v vs => simp [packNth]
  | succ j ih =>
    cases fs with
    | nil => simp at hj
    | cons f fs =>
      cases vs with
      | nil => simp at hlen
      | cons v vs =>
        simp only [packNth, List.getElem_cons_succ]
        exact ih fs vs (by simpa using hj) (by simpa using hlen)

/-- C11, encoding: after any history, the encoding of the union is the tag of the active field (of the first field if none
was chosen) followed by the encoding of that field. -/
theorem C11_encoding (fs : List Ty) (h : List (List PathStep × ObjOp)) (tao : Bool) (j : Nat) (hj : j < fs.length)
    (hch : (h.foldl (chosenAfter fs.length) none).getD 0 = j) :
    ∃ vs', ∃ hl : vs'.length = fs.length,
      (objRun (.comp true fs) h (newVal (.comp true fs))).2 = .comp (h.foldl (chosenAfter fs.length) none) vs' ∧
      pack (.comp true fs) (objRun (.comp true fs) h (newVal (.comp true fs))).2 tao =
        (pack fs[j] (vs'[j]'(by omega)) tao).map (formatBin (unionTagBits fs.length) j ++ ·) := by
  obtain ⟨vs', h1, h2⟩ := C11_active_field fs h none (newVals fs) (by simp [newVals_eq])
  have hn : newVal (.comp true fs) = .comp none (newVals fs) := by simp [newVal]
  rw [hn]
  refine ⟨vs', h2, h1, ?_⟩
  rw [h1]
  simp only [pack, hch, packNth_getElem fs vs' j hj h2, bind, Except.bind, pure, Except.pure]
  cases pack fs[j] (vs'[j]'(by omega)) tao <;> rfl

/-- A union of a byte and an array of bytes: reading the array activates it; the byte is then refused, until the union is
switched. -/
example :
    let u8 : Ty := .prim ⟨.unsigned, 8, false⟩
    let t : Ty := .comp true [u8, .arr u8 true 3]
    objRun t [([.field 1], .arr (.append (.int 7))), ([], .get 0), ([], .set 0 (.int 1)), ([], .switch (some 0)),
        ([], .set 0 (.int 300))] (newVal t) =
      ([.ok none, .error .attributeError, .error .attributeError, .ok none, .ok none],
       .comp (some 0) [.prim (formatBin 8 255), .arr [.prim (formatBin 8 7)]]) := by
  decide +kernel

/-- Elements of array fields of integers: any number is stored, and read back as the same number assigned to a field of that type reads back
(C03, C04). -/
theorem C10_field_elements (p : PrimTy) (hk : p.kind ≠ .float) (x : Int) :
    ∃ v y, (valElem (.prim p)).wr (.int x) = .ok v ∧ assignRead p x = .ok (some y) ∧ (valElem (.prim p)).rd v = .int y := by
  have hset : ∃ b, setInt p x = .ok b ∧ b ≠ [] := by
    obtain ⟨k, n, t⟩ := p
    have hne : ∀ n v, formatBin n v ≠ [] := by
      intro n v h
      have := congrArg List.length h
      simp [formatBin, binDigits] at this
    cases k with
    | boolean => exact ⟨_, rfl, by by_cases h : x ≠ 0 <;> simp [h]⟩
    | unsigned => exact ⟨_, rfl, hne _ _⟩
    | signed => exact ⟨_, rfl, hne _ _⟩
    | float => exact absurd rfl hk
  obtain ⟨b, hb, hne⟩ := hset
  have hget : ∃ y, getInt p b = some y := by
    obtain ⟨k, n, t⟩ := p
    unfold getInt
    rw [if_neg hne]
    cases k with
    | float => exact absurd rfl hk
    | boolean | unsigned | signed => exact ⟨_, rfl⟩
  obtain ⟨y, hy⟩ := hget
  refine ⟨.prim b, y, ?_, ?_, ?_⟩
  · simp only [valElem, hb]
  · simp only [assignRead, hb, hy]
  · simp only [valElem, hy, Option.getD_some]

/-- C06 and C10 for whole messages: any object obtained from a fresh message by operations through the API (at any depth,
in any order, including failing ones) is an object of its type, with every array within its capacity. In particular the
hypothesis `hasTy` of the serialization theorems C06 and C07 holds of everything a user can build. -/
theorem C10_api_objects (t : Ty) (ht : IntTy t = true) (h : List (List PathStep × ObjOp))
    (hh : ∀ s ∈ h, accessTyped t s.1 s.2 = true) : goodVal t (objRun t h (newVal t)).2 = true := by
  have gen : ∀ v, goodVal t v = true → goodVal t (objRun t h v).2 = true := by
    induction h with
    | nil => intro v hv; exact hv
    | cons s h ih =>
      intro v hv
      obtain ⟨path, op⟩ := s
      simp only [objRun]
      exact ih (fun s hs => hh s (by simp [hs])) _ (access_good t ht v hv path op (hh (path, op) (by simp)))
  exact gen _ (goodVal_newVal t)

/-- C06 for what the API builds: whatever was done to a message object, encoding it to bytes and decoding the bytes yields
its content. -/
theorem C06_api_roundtrip (t : Ty) (hwf : WfTy t = true) (ht : IntTy t = true) (h : List (List PathStep × ObjOp))
    (hh : ∀ s ∈ h, accessTyped t s.1 s.2 = true) :
    ∃ bits, pack t (objRun t h (newVal t)).2 true = .ok bits ∧
      ∃ rest, unpack t (bitsFromBytes (bytesFromBits bits)) true = .ok (canon t (objRun t h (newVal t)).2, rest) := by
  have hg := C10_api_objects t ht h hh
  simp only [goodVal, Bool.and_eq_true] at hg
  obtain ⟨bits, rest, h1, h2⟩ := C06_roundtrip_bytes t _ true hwf hg.1
  exact ⟨bits, h1, rest, h2⟩

/-- The hypotheses of the two theorems above hold of a non-trivial type and history (with failing operations). -/
example :
    let u8 : Ty := .prim ⟨.unsigned, 8, false⟩
    let pair : Ty := .comp false [u8, .prim ⟨.signed, 12, true⟩]
    let t : Ty := .comp false [.arr pair true 2, .comp true [u8, pair]]
    let p : Val := .comp none [.prim (formatBin 8 1), .prim (formatBin 12 2)]
    let h : List (List PathStep × ObjOp) :=
      [([.field 0], .arr (.append (.obj p))), ([.field 0, .item 0], .set 1 (.int (-5))),
       ([.field 0], .arr (.extend [.obj p, .obj p])), ([.field 1], .set 1 (.obj true p)), ([.field 1], .get 0)]
    WfTy t = true ∧ IntTy t = true ∧ (h.all fun s => accessTyped t s.1 s.2) = true ∧
      (objRun t h (newVal t)).1 = [.ok none, .ok none, .error .indexError, .ok none, .error .attributeError] := by
  decide +kernel

end Dronecan
