import Verif.Model.Alias

/-!
# C61: assigning a nested structure

The claim "after `outer.field = inner`, later changes to `inner` do not affect `outer`" is false of the code: the
assignment makes a shallow copy that shares its fields with `inner`. Proved here: the counterexample, what the assignment
does guarantee, the exact extent of the sharing, and that objects which share nothing are independent.
-/

namespace Dronecan

/-- The full claim: an assignment `outer.i = inner` is not affected by later operations on `inner`. -/
def C61_statement : Prop :=
  ∀ (h : Heap) (outer i inner : Nat) (ops : List HeapOp),
    outer ≠ inner →
    (∀ op ∈ ops, ∃ p j x, op = .setInt inner p j x) →
    ∀ p j, (((h.exec (.setComp outer [] i inner [])).run ops).read outer (.field i :: p) j) =
      ((h.exec (.setComp outer [] i inner [])).read outer (.field i :: p) j)

/-- Object 0 is `outer` (one nested structure, object 1), object 2 is `inner` (one integer field). -/
def aliasHeap : Heap := ⟨[0, 1, 2], [[.comp 1], [.prim 0], [.prim 7]]⟩

/-- C61 is false: after `outer.f = inner; inner.x = 5`, `outer.f.x` reads 5, although it read 7 after the assignment. -/
theorem C61_counterexample : ¬ C61_statement := by
  intro h
  have := h aliasHeap 0 0 2 [.setInt 2 [] 0 5] (by decide) (by simp) [] 0
  revert this
  decide

theorem resolve_lt (h : Heap) (o : Nat) (p : List AStep) (o' : Nat) (hr : h.resolve o p = some o') :
    o' < h.objs.length := by
  induction p generalizing o with
  | nil =>
    simp only [Heap.resolve] at hr
    split at hr
    · rename_i hs
      simp only [Option.some.injEq] at hr
      subst hr
      rw [Option.isSome_iff_exists] at hs
      obtain ⟨d, hd⟩ := hs
      exact (List.getElem?_eq_some_iff.1 hd).1
    · cases hr
  | cons s p ih =>
    cases s with
    | field i =>
      simp only [Heap.resolve] at hr
      split at hr
      · exact ih _ hr
      · cases hr
    | item i k =>
      simp only [Heap.resolve] at hr
      split at hr
      · split at hr
        · exact ih _ hr
        · cases hr
      · cases hr

theorem exec_objs (h : Heap) (op : HeapOp) : ∃ new, (h.exec op).objs = h.objs ++ new := by
  cases op with
  | setInt r p i x =>
    refine ⟨[], ?_⟩
    simp only [Heap.exec, List.append_nil]
    split
    · split
      · simp only [Heap.setField]; split <;> rfl
      · rfl
    · rfl
  | setComp r p i r' p' =>
    simp only [Heap.exec]
    split
    · split
      · rename_i d _ _
        refine ⟨[d], ?_⟩
        simp only [Heap.setField]; split <;> rfl
      · exact ⟨[], by simp⟩
    · exact ⟨[], by simp⟩
  | append r p i r' =>
    refine ⟨[], ?_⟩
    simp only [Heap.exec, List.append_nil]
    split
    · split
      · split
        · simp only [Heap.setField]; split <;> rfl
        · rfl
      · rfl
    · rfl

/-- The dictionary of an object never changes. -/
theorem run_objs (ops : List HeapOp) (h : Heap) (o d : Nat) (ho : h.objs[o]? = some d) :
    (h.run ops).objs[o]? = some d := by
  induction ops generalizing h with
  | nil => exact ho
  | cons op ops ih =>
    apply ih (h.exec op)
    obtain ⟨new, hn⟩ := exec_objs h op
    rw [hn, List.getElem?_append_left (List.getElem?_eq_some_iff.1 ho).1]
    exact ho

/-- Two objects with the same dictionary show the same contents along every path. -/
theorem read_shared (h : Heap) (a b : Nat) (d : Nat) (ha : h.objs[a]? = some d) (hb : h.objs[b]? = some d)
    (p : List AStep) (j : Nat) : h.read a p j = h.read b p j := by
  have hf : h.fields a = h.fields b := by simp only [Heap.fields, ha, hb]
  cases p with
  | nil => simp only [Heap.read, Heap.resolve, ha, hb, Option.isSome_some, if_true, hf]
  | cons s p =>
    cases s with
    | field i => simp only [Heap.read, Heap.resolve, hf]
    | item i k => simp only [Heap.read, Heap.resolve, hf]

/-- The objects and the slot after a successful assignment of a nested structure. -/
theorem exec_setComp (h : Heap) (outer i inner old din dout : Nat) (fs : List Slot)
    (ho : h.objs[outer]? = some dout) (hi : h.objs[inner]? = some din) (hd : h.dicts[dout]? = some fs)
    (hs : fs[i]? = some (.comp old)) :
    (h.exec (.setComp outer [] i inner [])).objs = h.objs ++ [din] ∧
    ((h.exec (.setComp outer [] i inner [])).fields outer).bind (·[i]?) = some (.comp h.objs.length) := by
  have hro : h.resolve outer [] = some outer := by simp [Heap.resolve, ho]
  have hri : h.resolve inner [] = some inner := by simp [Heap.resolve, hi]
  have hfo : (h.fields outer).bind (·[i]?) = some (.comp old) := by simp [Heap.fields, ho, hd, hs]
  have hol := (List.getElem?_eq_some_iff.1 ho).1
  have ho' : (h.objs ++ [din])[outer]? = some dout := by rw [List.getElem?_append_left hol]; exact ho
  have he : h.exec (.setComp outer [] i inner []) =
      { objs := h.objs ++ [din], dicts := h.dicts.modify dout (·.set i (.comp h.objs.length)) } := by
    simp only [Heap.exec, hro, hri, hfo, hi, Heap.setField, ho']
  rw [he]
  refine ⟨rfl, ?_⟩
  have hil : i < fs.length := (List.getElem?_eq_some_iff.1 hs).1
  simp only [Heap.fields, ho', Option.bind_some, List.getElem?_modify]
  simp [hd, hil]

/-- C61, what holds (1): immediately after `outer.i = inner`, `outer.i` reads exactly like `inner`, along every path.
Missing for the full property: independence from later changes, which is false. -/
theorem C61_content_copied_partial (h : Heap) (outer i inner old din dout : Nat) (fs : List Slot)
    (ho : h.objs[outer]? = some dout) (hi : h.objs[inner]? = some din) (hd : h.dicts[dout]? = some fs)
    (hs : fs[i]? = some (.comp old)) (p : List AStep) (j : Nat) :
    (h.exec (.setComp outer [] i inner [])).read outer (.field i :: p) j =
      (h.exec (.setComp outer [] i inner [])).read inner p j := by
  obtain ⟨h1, h2⟩ := exec_setComp h outer i inner old din dout fs ho hi hd hs
  have e : (h.exec (.setComp outer [] i inner [])).read outer (.field i :: p) j =
      (h.exec (.setComp outer [] i inner [])).read h.objs.length p j := by
    simp only [Heap.read, Heap.resolve, h2]
  rw [e]
  apply read_shared _ _ _ din
  · rw [h1]; simp
  · rw [h1, List.getElem?_append_left (List.getElem?_eq_some_iff.1 hi).1]; exact hi

/-- C61, the exact extent of the failure: from the assignment on, through any later history of any operations, the object
stored in `outer.i` and `inner` read the same along every path: they are two names for the same contents for ever. (If
`outer.i` itself is assigned again, `outer` holds another object from then on.) -/
theorem C61_aliased_forever_partial (h : Heap) (outer i inner old din dout : Nat) (fs : List Slot)
    (ho : h.objs[outer]? = some dout) (hi : h.objs[inner]? = some din) (hd : h.dicts[dout]? = some fs)
    (hs : fs[i]? = some (.comp old)) :
    ∃ copy, ((h.exec (.setComp outer [] i inner [])).resolve outer [.field i]) = some copy ∧ copy ≠ inner ∧
      ∀ (ops : List HeapOp) (p : List AStep) (j : Nat),
        ((h.exec (.setComp outer [] i inner [])).run ops).read copy p j =
          ((h.exec (.setComp outer [] i inner [])).run ops).read inner p j := by
  obtain ⟨h1, h2⟩ := exec_setComp h outer i inner old din dout fs ho hi hd hs
  have hlt := (List.getElem?_eq_some_iff.1 hi).1
  refine ⟨h.objs.length, ?_, by omega, fun ops p j => ?_⟩
  · simp [Heap.resolve, h2, h1]
  · apply read_shared _ _ _ din
    · exact run_objs ops _ _ _ (by rw [h1]; simp)
    · exact run_objs ops _ _ _ (by rw [h1, List.getElem?_append_left hlt]; exact hi)

/-- Dictionary `d` is part of the contents of object `o`: some path leads from `o` to an object with dictionary `d`. -/
def Heap.Holds (h : Heap) (o d : Nat) : Prop := ∃ p o', h.resolve o p = some o' ∧ h.objs[o']? = some d

theorem fields_setField_ne (h : Heap) (o i : Nat) (s : Slot) (d o' : Nat) (hd : h.objs[o]? = some d)
    (hne : h.objs[o']? ≠ some d) : (h.setField o i s).fields o' = h.fields o' := by
  simp only [Heap.setField, hd, Heap.fields]
  cases ho : h.objs[o']? with
  | none => rfl
  | some d' =>
    have : d ≠ d' := fun e => hne (by rw [ho, e])
    simp only [Option.bind_some, List.getElem?_modify]
    simp [this]

theorem holds_self (h : Heap) (o d : Nat) (hd : h.objs[o]? = some d) : h.Holds o d :=
  ⟨[], o, by simp [Heap.resolve, hd], hd⟩

theorem setField_objs (h : Heap) (o i : Nat) (s : Slot) : (h.setField o i s).objs = h.objs := by
  simp only [Heap.setField]; split <;> rfl

theorem resolve_frame (h : Heap) (o i : Nat) (s : Slot) (d : Nat) (hd : h.objs[o]? = some d) (a : Nat)
    (ha : ¬ h.Holds a d) (p : List AStep) : (h.setField o i s).resolve a p = h.resolve a p := by
  induction p generalizing a with
  | nil => simp only [Heap.resolve, setField_objs]
  | cons st p ih =>
    have hf := fields_setField_ne h o i s d a hd (fun e => ha (holds_self h a d e))
    cases st with
    | field k =>
      simp only [Heap.resolve, hf]
      cases hc : (h.fields a).bind (·[k]?) with
      | none => rfl
      | some sl =>
        cases sl with
        | comp o' =>
          apply ih
          rintro ⟨q, o'', h1, h2⟩
          exact ha ⟨.field k :: q, o'', by simp only [Heap.resolve, hc, h1], h2⟩
        | _ => rfl
    | item k m =>
      simp only [Heap.resolve, hf]
      cases hc : (h.fields a).bind (·[k]?) with
      | none => rfl
      | some sl =>
        cases sl with
        | arr os =>
          simp only
          cases hm : os[m]? with
          | none => rfl
          | some o' =>
            apply ih
            rintro ⟨q, o'', h1, h2⟩
            exact ha ⟨.item k m :: q, o'', by simp only [Heap.resolve, hc, hm, h1], h2⟩
        | _ => rfl

theorem setField_frame (h : Heap) (o i : Nat) (s : Slot) (d : Nat) (hd : h.objs[o]? = some d) (a : Nat)
    (ha : ¬ h.Holds a d) (p : List AStep) (j : Nat) : (h.setField o i s).read a p j = h.read a p j := by
  simp only [Heap.read, resolve_frame h o i s d hd a ha p]
  cases hr : h.resolve a p with
  | none => rfl
  | some o' =>
    simp only
    rw [fields_setField_ne h o i s d o' hd (fun e => ha ⟨p, o', hr, e⟩)]

/-- C61, what holds (2): an integer assignment `root.path.i = x` is visible only through objects whose contents include
the very structure that was written; a message that shares no structure with it is not affected. -/
theorem C61_independent_partial (h : Heap) (root : Nat) (path : List AStep) (i : Nat) (x : Int) (o d : Nat)
    (hr : h.resolve root path = some o) (hd : h.objs[o]? = some d) (a : Nat) (ha : ¬ h.Holds a d)
    (p : List AStep) (j : Nat) : (h.exec (.setInt root path i x)).read a p j = h.read a p j := by
  simp only [Heap.exec, hr]
  split
  · exact setField_frame h o i (.prim x) d hd a ha p j
  · rfl

/-- The write itself takes effect: after `root.path.i = x` (on an integer field), reading it back gives `x`, as long as the
path does not run through the written structure (it cannot: the written field is an integer). -/
theorem C61_write_takes_effect (h : Heap) (o i : Nat) (x old : Int) (d : Nat) (fs : List Slot)
    (ho : h.objs[o]? = some d) (hd : h.dicts[d]? = some fs) (hs : fs[i]? = some (.prim old)) :
    (h.exec (.setInt o [] i x)).read o [] i = some x := by
  have hro : h.resolve o [] = some o := by simp [Heap.resolve, ho]
  have hfo : (h.fields o).bind (·[i]?) = some (.prim old) := by simp [Heap.fields, ho, hd, hs]
  have hil : i < fs.length := (List.getElem?_eq_some_iff.1 hs).1
  have he : h.exec (.setInt o [] i x) = { h with dicts := h.dicts.modify d (·.set i (.prim x)) } := by
    simp only [Heap.exec, hro, hfo, Heap.setField, ho]
  rw [he]
  simp only [Heap.read, Heap.resolve, Heap.fields, ho, Option.isSome_some, if_true, Option.bind_some,
    List.getElem?_modify]
  simp [hd, hil]

/-- C61 for arrays of structures: after `outer.i.append(other)`, the last element is the object `other` itself, and the
elements before it are the objects that they were. -/
theorem C61_append_partial (h : Heap) (outer i other dout : Nat) (fs : List Slot) (os : List Nat)
    (ho : h.objs[outer]? = some dout) (hi : other < h.objs.length) (hd : h.dicts[dout]? = some fs)
    (hs : fs[i]? = some (.arr os)) :
    (h.exec (.append outer [] i other)).resolve outer [.item i os.length] = some other ∧
    (∀ k o, os[k]? = some o → o < h.objs.length →
      (h.exec (.append outer [] i other)).resolve outer [.item i k] = some o) ∧
    ∀ k, os.length < k → (h.exec (.append outer [] i other)).resolve outer [.item i k] = none := by
  have hro : h.resolve outer [] = some outer := by simp [Heap.resolve, ho]
  have hfo : (h.fields outer).bind (·[i]?) = some (.arr os) := by simp [Heap.fields, ho, hd, hs]
  have hil : i < fs.length := (List.getElem?_eq_some_iff.1 hs).1
  have he : h.exec (.append outer [] i other) = { h with dicts := h.dicts.modify dout (·.set i (.arr (os ++ [other]))) } := by
    simp only [Heap.exec, hro, hfo, Heap.setField, ho, hi, if_true]
  have hf : ((h.exec (.append outer [] i other)).fields outer).bind (·[i]?) = some (.arr (os ++ [other])) := by
    rw [he]
    simp only [Heap.fields, ho, Option.bind_some, List.getElem?_modify]
    simp [hd, hil]
  have hobjs : (h.exec (.append outer [] i other)).objs = h.objs := by rw [he]
  refine ⟨?_, fun k o hk hlt => ?_, fun k hk => ?_⟩
  · simp [Heap.resolve, hf, hobjs, hi]
  · have : (os ++ [other])[k]? = some o := by
      rw [List.getElem?_append_left (List.getElem?_eq_some_iff.1 hk).1]; exact hk
    simp only [Heap.resolve, hf, this, hobjs, List.getElem?_eq_getElem hlt, Option.isSome_some, if_true]
  · have : (os ++ [other])[k]? = none := by
      rw [List.getElem?_eq_none_iff]; simp; omega
    simp only [Heap.resolve, hf, this]

/-- Hence a message appended to two arrays is one object: a change made through one of them is seen through the other. -/
example : let h : Heap := ⟨[0, 1, 2], [[.arr []], [.arr [2]], [.prim 7]]⟩
    let h' := h.run [.append 0 [] 0 2, .append 0 [] 0 1, .setInt 1 [.item 0 0] 0 5]
    h'.read 0 [.item 0 0] 0 = some 5 ∧ h'.read 0 [.item 0 1, .item 0 0] 0 = some 5 := by decide

/-- The hypotheses of the theorems above hold in `aliasHeap`: outer 0, nested field 0, inner 2; and object 0 does not hold
the dictionary of object 2 before the assignment, so that writes to `inner` are then invisible. -/
example : aliasHeap.objs[0]? = some 0 ∧ aliasHeap.objs[2]? = some 2 ∧ aliasHeap.dicts[0]? = some [.comp 1] ∧
    aliasHeap.read 0 [.field 0] 0 = some 0 ∧
    (aliasHeap.exec (.setComp 0 [] 0 2 [])).read 0 [.field 0] 0 = some 7 ∧
    ((aliasHeap.exec (.setComp 0 [] 0 2 [])).exec (.setInt 2 [] 0 5)).read 0 [.field 0] 0 = some 5 ∧
    (aliasHeap.exec (.setInt 2 [] 0 5)).read 0 [.field 0] 0 = some 0 := by decide

end Dronecan
