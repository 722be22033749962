import Verif.Proofs.Container
import Verif.Props.Prim

/-!
# C10: arrays behave like plain lists of bounded length

The element type is described by `norm` (what is read back after storing a value) and `acc` (which values can be
stored); `Describes` ties them to the setter and getter of the elements, and `hid` says that a value read from the array can
be stored back unchanged. Both are proved for integer elements of every width (`C10_integer_elements`) and are trivial
for arrays of objects (`C10_object_elements`).
-/

namespace Dronecan
variable {V S : Type} [DecidableEq V]

/-- C10, one operation: from contents within capacity, every operation keeps the length within capacity, succeeds exactly
when `opOk` says so, has then the effect it has on a plain list, and leaves what `failStep` says (nothing changed, for
single-element operations) when it raises. -/
theorem C10_step {ops : ElemOps V S} {maxSize : Nat} {norm : V → V} {acc : V → Bool} (hd : Describes ops norm acc)
    (hid : ∀ x, Stored ops x → acc (ops.rd x) = true ∧ norm (ops.rd x) = ops.rd x)
    (op : ArrOp V) (l : List S) (hs : ∀ x ∈ l, Stored ops x) (hl : l.length ≤ maxSize) :
    ∃ r l', arrExec ops maxSize op l = (r, l') ∧ l'.length ≤ maxSize ∧ (∀ x ∈ l', Stored ops x) ∧
      (r = .ok () ↔ opOk acc maxSize op (l.map ops.rd)) ∧
      l'.map ops.rd = if r = .ok () then plainStep norm op (l.map ops.rd) else failStep norm acc maxSize op (l.map ops.rd)
      := by
  have lift : ∀ l' : List S, (∀ x ∈ l', x ∈ l ∨ Stored ops x) → ∀ x ∈ l', Stored ops x :=
    fun l' h x hx => (h x hx).elim (hs x) id
  cases op with
  | append v =>
    simp only [arrExec, opOk, plainStep, failStep, List.length_map]
    by_cases h : l.length < maxSize ∧ acc v = true
    · obtain ⟨x, hx, he⟩ := (arrAppend_spec hd hl).1 h
      refine ⟨_, _, he, by simp; omega, ?_, by simp [h], by simp [hd.norm_eq v x hx]⟩
      intro y hy
      rw [List.mem_append, List.mem_singleton] at hy
      rcases hy with hy | rfl
      · exact hs y hy
      · exact ⟨v, hx⟩
    · obtain ⟨e, he⟩ := (arrAppend_spec hd hl).2 h
      exact ⟨_, _, he, hl, hs, by simp [h], by simp⟩
  | insert i v =>
    simp only [arrExec, opOk, plainStep, failStep, List.length_map]
    by_cases h : l.length < maxSize ∧ i < maxSize ∧ acc v = true
    · obtain ⟨l', he, hm, hst⟩ := (arrInsert_ok hd hl).1 h
      refine ⟨_, _, he, ?_, lift _ hst, by simp [h], by simp [hm]⟩
      have := congrArg List.length hm
      rw [List.length_map, List.length_insertIdx, List.length_map, if_pos (gapOf_le _ _)] at this
      omega
    · obtain ⟨e, he⟩ := (arrInsert_ok hd hl).2 h
      exact ⟨_, _, he, hl, hs, by simp [h], by simp⟩
  | setItem i v =>
    simp only [arrExec, opOk, plainStep, failStep, List.length_map]
    by_cases h : InRange l.length i ∧ acc v = true
    · obtain ⟨l', he, hm, hst⟩ := (arrSet_spec hd hl).1 h
      refine ⟨_, _, he, ?_, lift _ hst, by simp [h], by simp [hm]⟩
      have := congrArg List.length hm
      rw [List.length_map, List.length_set, List.length_map] at this
      omega
    · obtain ⟨e, he⟩ := (arrSet_spec hd hl).2 h
      exact ⟨_, _, he, hl, hs, by simp [h], by simp⟩
  | delItem i =>
    simp only [arrExec, opOk, plainStep, failStep, List.length_map]
    by_cases h : InRange l.length i
    · refine ⟨_, _, arrDel_ok h, ?_, fun x hx => hs x (List.mem_of_mem_eraseIdx hx), by simp [h], by simp [map_eraseIdx]⟩
      exact Nat.le_trans (List.length_eraseIdx_le ..) hl
    · exact ⟨_, _, arrDel_err h, hl, hs, by simp [h], by simp⟩
  | delSlice a b =>
    simp only [arrExec, arrDelSlice, opOk, plainStep, failStep, List.length_map]
    refine ⟨_, _, rfl, ?_, ?_, by simp, ?_⟩
    · simp only [List.length_append, List.length_take, List.length_drop]; omega
    · intro x hx
      rw [List.mem_append] at hx
      rcases hx with hx | hx
      · exact hs x (List.mem_of_mem_take hx)
      · exact hs x (List.mem_of_mem_drop hx)
    · cases a <;> cases b <;> simp [pyClamp_eq]
  | pop i =>
    simp only [arrExec, opOk, plainStep, failStep, List.length_map]
    by_cases h : InRange l.length i
    · obtain ⟨v, -, he⟩ := arrPop_ok (ops := ops) h
      refine ⟨.ok (), l.eraseIdx (posOf l.length i), by simp [he], ?_,
        fun x hx => hs x (List.mem_of_mem_eraseIdx hx), by simp [h], by simp [map_eraseIdx]⟩
      exact Nat.le_trans (List.length_eraseIdx_le ..) hl
    · exact ⟨.error .indexError, l, by simp [arrPop_err (ops := ops) h], hl, hs, by simp [h], by simp⟩
  | remove v =>
    simp only [arrExec, opOk, plainStep, failStep]
    by_cases h : v ∈ l.map ops.rd
    · obtain ⟨l', he, hm, hst⟩ := (arrRemove_spec v l).1 h
      refine ⟨_, _, he, ?_, fun x hx => hs x (hst x hx), by simp [h], by simp [hm]⟩
      have := congrArg List.length hm
      rw [List.length_map] at this
      have h2 := List.length_erase_of_mem h
      rw [List.length_map] at h2
      omega
    · exact ⟨_, _, (arrRemove_spec v l).2 h, hl, hs, by simp [h], by simp⟩
  | reverse =>
    simp only [arrExec, opOk, plainStep, failStep]
    obtain ⟨l', he, hm, hst, hlen⟩ := arrReverse_spec hd hid l hs hl
    exact ⟨_, _, he, by omega, hst, by simp, by simp [hm]⟩
  | clear =>
    simp only [arrExec, opOk, plainStep, failStep]
    exact ⟨_, _, arrClear_run l, by simp, by simp, by simp, by simp⟩
  | extend vs =>
    simp only [arrExec, opOk, plainStep, failStep, List.length_map]
    have hiff := arrExtend_ok_iff hd vs l hl
    obtain ⟨k, hk, l', r, h1, h2, h3, h4, h5, h6, h7⟩ := arrExtend_spec hd vs l hl
    rw [h1] at hiff
    refine ⟨r, l', h1, h5, lift _ h3, hiff, ?_⟩
    have hlen := congrArg List.length h2
    simp only [List.length_map, List.length_append, List.length_take] at hlen
    split
    · rename_i hr
      rw [h2, h4.1 hr, List.take_length]
    · rw [h2, takeWhile_take_eq acc vs (maxSize - l.length) k hk (by omega) h6]
      intro v hv hc
      exact h7 v hv ⟨by omega, hc.2⟩
  | assign vs =>
    simp only [arrExec, arrSetAttr, opOk, plainStep, failStep, arrClear_run]
    have hiff := arrExtend_ok_iff (ops := ops) (maxSize := maxSize) hd vs [] (by simp)
    obtain ⟨k, hk, l', r, h1, h2, h3, h4, h5, h6, h7⟩ :=
      arrExtend_spec (ops := ops) (maxSize := maxSize) hd vs [] (by simp)
    rw [h1] at hiff
    rw [h1]
    have hlen := congrArg List.length h2
    simp only [List.length_map, List.length_append, List.length_take, List.length_nil] at hlen
    have hst : ∀ x ∈ l', Stored ops x := fun x hx => (h3 x hx).elim (by simp) id
    cases r with
    | ok u =>
      refine ⟨.ok (), l', rfl, h5, hst, ?_, ?_⟩
      · simpa using hiff
      · rw [if_pos rfl, h2, h4.1 rfl, List.take_length]; simp
    | error e =>
      refine ⟨.error .attributeError, l', rfl, h5, hst, ?_, ?_⟩
      · simpa using hiff
      · rw [if_neg (by simp), h2, takeWhile_take_eq acc vs maxSize k hk (by omega) h6]
        · simp
        · intro v hv hc
          exact h7 v hv ⟨by simpa using hc.1, hc.2⟩
  | fromBytes vs =>
    simp only [arrExec, arrAssignAll, PyM.bind_run, opOk, plainStep, failStep, arrDelSlice_all]
    have hiff := arrExtend_ok_iff (ops := ops) (maxSize := maxSize) hd vs [] (by simp)
    obtain ⟨k, hk, l', r, h1, h2, h3, h4, h5, h6, h7⟩ :=
      arrExtend_spec (ops := ops) (maxSize := maxSize) hd vs [] (by simp)
    rw [h1] at hiff
    rw [h1]
    have hlen := congrArg List.length h2
    simp only [List.length_map, List.length_append, List.length_take, List.length_nil] at hlen
    have hst : ∀ x ∈ l', Stored ops x := fun x hx => (h3 x hx).elim (by simp) id
    refine ⟨r, l', rfl, h5, hst, by simpa using hiff, ?_⟩
    by_cases hr : r = .ok ()
    · rw [if_pos hr, h2, h4.1 hr, List.take_length]; simp
    · rw [if_neg hr, h2, takeWhile_take_eq acc vs maxSize k hk (by omega) h6]
      · simp
      · intro v hv hc
        exact h7 v hv ⟨by simpa using hc.1, hc.2⟩

/-- C10 over histories: after any sequence of operations on an array (starting from contents within capacity, e.g. the
empty array), the length does not exceed the capacity and the contents are those of a plain list subjected to the
same operations, where the operations that raised left what `failStep` says. -/
theorem C10_history {ops : ElemOps V S} {maxSize : Nat} {norm : V → V} {acc : V → Bool} (hd : Describes ops norm acc)
    (hid : ∀ x, Stored ops x → acc (ops.rd x) = true ∧ norm (ops.rd x) = ops.rd x)
    (h : List (ArrOp V)) (l : List S) (hs : ∀ x ∈ l, Stored ops x) (hl : l.length ≤ maxSize) :
    (arrRun ops maxSize h l).2.length ≤ maxSize ∧
    (arrRun ops maxSize h l).1.length = h.length ∧
    (arrRun ops maxSize h l).2.map ops.rd =
      plainRun norm acc maxSize (h.zip ((arrRun ops maxSize h l).1.map fun r => r == .ok ())) (l.map ops.rd) := by
  induction h generalizing l with
  | nil => exact ⟨hl, rfl, rfl⟩
  | cons op h ih =>
    obtain ⟨r, l', he, hl', hs', -, hm⟩ := C10_step hd hid op l hs hl
    obtain ⟨h1, h2, h3⟩ := ih l' hs' hl'
    simp only [arrRun, he]
    refine ⟨h1, by simp [h2], ?_⟩
    simp only [List.map_cons, List.zip_cons_cons, plainRun]
    rw [h3, hm]
    by_cases hr : r = .ok () <;> simp [hr]

/-- C10, reading: `a[i]` and `a.pop(i)` yield the element the plain list has at that position, and raise `IndexError` when
there is none; `a[i]` changes nothing. -/
theorem C10_reads {ops : ElemOps V S} (l : List S) (i : Int) :
    (InRange l.length i → ∃ v, (l.map ops.rd)[posOf l.length i]? = some v ∧ arrGet ops i l = (.ok v, l) ∧
      ∃ l', arrPop ops i l = (.ok v, l') ∧ l'.map ops.rd = (l.map ops.rd).eraseIdx (posOf l.length i)) ∧
    (¬ InRange l.length i → arrGet ops i l = (.error .indexError, l) ∧ arrPop ops i l = (.error .indexError, l)) := by
  refine ⟨fun h => ?_, fun h => ⟨arrGet_err h, arrPop_err h⟩⟩
  obtain ⟨v, hv, hg⟩ := arrGet_ok (ops := ops) h
  obtain ⟨v', hv', hp⟩ := arrPop_ok (ops := ops) h
  rw [hv] at hv'
  simp only [Option.some.injEq] at hv'
  subst hv'
  exact ⟨v, hv, hg, _, hp, map_eraseIdx _ _ _⟩

/-- C10: `a.pop()` takes the last element. -/
theorem C10_pop {ops : ElemOps V S} (l : List S) (x : S) : ∃ l', (arrPop ops : PyM (List S) V) (l ++ [x]) = (.ok (ops.rd x), l') ∧ l'.map ops.rd = l.map ops.rd := by
  have hr : InRange (l ++ [x]).length (-1) := by simp [InRange]; omega
  have hpos : posOf (l ++ [x]).length (-1) = l.length := by simp [posOf]; omega
  obtain ⟨v, h1, -, l', h2, h3⟩ := (C10_reads (ops := ops) (l ++ [x]) (-1)).1 hr
  rw [hpos] at h1 h3
  simp at h1 h3
  refine ⟨l', by rw [h1]; exact h2, ?_⟩
  rw [h3, List.eraseIdx_append_of_length_le (by simp)]
  simp

/-- Integer elements: `PrimitiveValue` of the boolean, unsigned and signed kinds (transport.py:276-333, 366-370). -/
def intElem (p : PrimTy) : ElemOps Int Bits := ⟨setInt p, fun b => (getInt p b).getD 0⟩

/-- The value read back after assigning `x` (C03 and C04 say which one it is). -/
def intNorm (p : PrimTy) (x : Int) : Int :=
  match assignRead p x with
  | .ok (some v) => v
  | _ => 0

theorem intElem_describes (p : PrimTy) (hk : p.kind ≠ .float) :
    Describes (intElem p) (intNorm p) (fun _ => true) where
  acc_iff v := by
    simp only [true_iff, intElem]
    obtain ⟨k, n, t⟩ := p
    cases k
    · exact ⟨_, rfl⟩
    · exact ⟨_, rfl⟩
    · exact ⟨_, rfl⟩
    · exact absurd rfl hk
  norm_eq v x h := by
    simp only [intElem] at h ⊢
    simp only [intNorm, assignRead, h]
    cases getInt p x <;> rfl

theorem intNorm_idem (p : PrimTy) (hk : p.kind ≠ .float) (h1 : 1 ≤ p.bitlen) (h64 : p.bitlen ≤ 64)
    (hb : p.kind = .boolean → p.bitlen = 1) (x : Int) : intNorm p (intNorm p x) = intNorm p x := by
  obtain ⟨k, n, t⟩ := p
  simp only at h1 h64 hb hk
  have hp := two_pow_pos_int n
  cases k with
  | float => exact absurd rfl hk
  | boolean =>
    have := hb rfl
    subst this
    simp only [intNorm, C03_boolean]
    by_cases h : x = 0 <;> simp [h]
  | unsigned =>
    cases t with
    | false => simp only [intNorm, C03_unsigned_saturated n h1]; omega
    | true =>
      simp only [intNorm, C03_unsigned_truncated n h1]
      exact Int.emod_emod_of_dvd x (Int.dvd_refl _)
  | signed =>
    have hpp := two_pow_pos_int (n - 1)
    cases t with
    | true => simp only [intNorm, C04_signed_truncated n h1]; rw [Int.bmod_bmod]
    | false =>
      by_cases h53 : n ≤ 53
      · simp only [intNorm, C04_signed_saturated_partial n h1 h53]; omega
      · have hw := C04_signed_saturated_wide_partial n (by omega) h64
        have hc := C04_signed_saturated_counterexample n (by omega) h64
        have key : -2 ^ (n - 1) ≤ intNorm ⟨.signed, n, false⟩ x ∧ intNorm ⟨.signed, n, false⟩ x < 2 ^ (n - 1) := by
          by_cases ha : 2 ^ (n - 1) ≤ x
          · simp only [intNorm, (hc x).1 ha]; omega
          · by_cases hb : x < -2 ^ (n - 1)
            · simp only [intNorm, (hc x).2 hb]; omega
            · simp only [intNorm, hw x (by omega) (by omega)]; omega
        have := hw _ key.1 key.2
        generalize intNorm ⟨.signed, n, false⟩ x = y at this
        simp only [intNorm, this]

/-- C10 for integer elements of every kind, width (1..64) and cast mode: no side condition is left. -/
theorem C10_integer_elements (p : PrimTy) (hk : p.kind ≠ .float) (h1 : 1 ≤ p.bitlen) (h64 : p.bitlen ≤ 64)
    (hb : p.kind = .boolean → p.bitlen = 1) (maxSize : Nat) (h : List (ArrOp Int)) :
    (arrRun (intElem p) maxSize h []).2.length ≤ maxSize ∧
    (arrRun (intElem p) maxSize h []).2.map (intElem p).rd =
      plainRun (intNorm p) (fun _ => true) maxSize
        (h.zip ((arrRun (intElem p) maxSize h []).1.map fun r => r == .ok ())) [] := by
  have hd := intElem_describes p hk
  have := C10_history (maxSize := maxSize) hd (fun x hx => ⟨rfl, ?_⟩) h [] (by simp) (by simp)
  · exact ⟨this.1, this.2.2⟩
  · obtain ⟨v, hv⟩ := hx
    rw [hd.norm_eq v x hv]
    exact intNorm_idem p hk h1 h64 hb v

/-- C10 for arrays of arrays or structures: the array holds the objects themselves. -/
theorem C10_object_elements (maxSize : Nat) (h : List (ArrOp V)) :
    (arrRun (⟨.ok, id⟩ : ElemOps V V) maxSize h []).2.length ≤ maxSize ∧
    (arrRun (⟨.ok, id⟩ : ElemOps V V) maxSize h []).2 =
      plainRun id (fun _ => true) maxSize
        (h.zip ((arrRun (⟨.ok, id⟩ : ElemOps V V) maxSize h []).1.map fun r => r == .ok ())) [] := by
  have := C10_history (ops := (⟨.ok, id⟩ : ElemOps V V)) (maxSize := maxSize) (norm := id) (acc := fun _ => true)
    ⟨fun v => by simp, fun v x hx => by simpa using hx.symm⟩ (fun x _ => ⟨rfl, rfl⟩) h [] (by simp) (by simp)
  exact ⟨this.1, by simpa using this.2.2⟩

/-- The full claim of C10 for every operation, including the assignment of a whole list to the field: an operation that
raises leaves the contents unchanged. -/
def C10_statement : Prop :=
  ∀ (p : PrimTy) (maxSize : Nat) (op : ArrOp Int) (l : List Bits) (e : Err),
    (arrExec (intElem p) maxSize op l).1 = .error e → (arrExec (intElem p) maxSize op l).2 = l

/-- Assigning a list that is too long to an array field raises `AttributeError` after the old contents are gone and part of
the new ones are in place. -/
theorem C10_counterexample : ¬ C10_statement := by
  intro h
  have := h ⟨.unsigned, 8, false⟩ 2 (.assign [1, 2, 3]) [formatBin 8 7] .attributeError (by decide +kernel)
  revert this
  decide +kernel

/-- What does hold of C10's "failed operations leave the contents unchanged": it is true of every operation that concerns
one element (all but `extend`, assigning a whole list and `from_bytes`). -/
theorem C10_failed_unchanged_partial {ops : ElemOps V S} {maxSize : Nat} {norm : V → V} {acc : V → Bool}
    (hd : Describes ops norm acc) (hid : ∀ x, Stored ops x → acc (ops.rd x) = true ∧ norm (ops.rd x) = ops.rd x)
    (op : ArrOp V) (hop : ∀ vs, op ≠ .extend vs ∧ op ≠ .assign vs ∧ op ≠ .fromBytes vs)
    (l : List S) (hs : ∀ x ∈ l, Stored ops x) (hl : l.length ≤ maxSize) (e : Err)
    (he : (arrExec ops maxSize op l).1 = .error e) :
    (arrExec ops maxSize op l).2.map ops.rd = l.map ops.rd := by
  obtain ⟨r, l', h1, -, -, -, h2⟩ := C10_step hd hid op l hs hl
  rw [h1] at he ⊢
  simp only at he
  subst he
  rw [h2, if_neg (by simp)]
  cases op <;> first
    | rfl
    | (exact absurd rfl (hop _).1)
    | (exact absurd rfl (hop _).2.1)
    | (exact absurd rfl (hop _).2.2)

/-- A history with successes and failures: capacity 3, `uint8` saturated. -/
example :
    arrRun (intElem ⟨.unsigned, 8, false⟩) 3
      [.append 5, .insert (-1) 300, .append 7, .append 9, .setItem 3 1, .setItem (-1) 8, .reverse, .pop 0] [] =
    ([.ok (), .ok (), .ok (), .error .indexError, .error .indexError, .ok (), .ok (), .ok ()],
     [formatBin 8 5, formatBin 8 255]) := by decide +kernel

/-- `from_bytes` with too many bytes raises and leaves as many as fit. -/
example :
    arrRun (intElem ⟨.unsigned, 8, false⟩) 3 [.append 5, .fromBytes [1, 2], .fromBytes [6, 7, 8, 9]] [] =
    ([.ok (), .ok (), .error .indexError], [formatBin 8 6, formatBin 8 7, formatBin 8 8]) := by decide +kernel

end Dronecan
