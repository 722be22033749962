import Verif.Spec.Compound
import Verif.Proofs.Codec
import Verif.Proofs.Prim
import Verif.Proofs.Container
import Verif.Proofs.Decode2

/-! Lemmas about using message objects. -/

namespace Dronecan

theorem formatBin_length_of_lt (n v : Nat) (hn : 1 ≤ n) (h : v < 2 ^ n) : (formatBin n v).length = n := by
  rw [formatBin_eq n v hn h]; simp

theorem setInt_length (p : PrimTy) (h1 : 1 ≤ p.bitlen) (h64 : p.bitlen ≤ 64) (hb : p.kind = .boolean → p.bitlen = 1)
    (x : Int) (b : Bits) (h : setInt p x = .ok b) : b.length = p.bitlen := by
  obtain ⟨k, n, t⟩ := p
  simp only at h1 h64 hb
  have hp := two_pow_pos_int n
  cases k with
  | float => simp [setInt] at h
  | boolean =>
    have := hb rfl
    subst this
    simp only [setInt, Except.ok.injEq] at h
    subst h
    split <;> rfl
  | unsigned =>
    simp only [setInt, Except.ok.injEq] at h
    subst h
    apply formatBin_length_of_lt n _ h1
    apply toNat_lt_two_pow
    cases t with
    | false =>
      have := castInt_saturated .unsigned n x 0 (2 ^ n - 1) rfl (by omega)
      rw [this]; omega
    | true =>
      simp only [castInt]
      exact Int.emod_lt_of_pos x hp
  | signed =>
    have hpd := two_pow_pred n h1
    have hpp := two_pow_pos_int (n - 1)
    simp only [setInt, Except.ok.injEq] at h
    subst h
    apply formatBin_length_of_lt n _ h1
    apply toNat_lt_two_pow
    cases t with
    | false =>
      by_cases h53 : n ≤ 53
      · rw [castInt_saturated .signed n x _ _ (signedRange_small n h1 h53) (by omega)]
        split <;> omega
      · rw [castInt_saturated .signed n x _ _ (signedRange_large n (by omega) h64) (by omega)]
        split <;> omega
    | true =>
      have hc : castInt x ⟨.signed, n, true⟩ = x % 2 ^ n := by simp [castInt]
      rw [hc]
      have h0 := Int.emod_nonneg x (b := 2 ^ n) (by omega)
      have h1 := Int.emod_lt_of_pos x hp
      split <;> omega

section
variable {V S : Type} {ops : ElemOps V S} {maxSize : Nat} {Q : S → Prop}

/-- Length within capacity, and `Q` for every item. -/
def ArrInv (maxSize : Nat) (Q : S → Prop) (l : List S) : Prop := l.length ≤ maxSize ∧ ∀ x ∈ l, Q x

theorem arrDel_inv {l : List S} (h : ArrInv maxSize Q l) (i : Int) : ArrInv maxSize Q (arrDel i l).2 := by
  by_cases hr : InRange l.length i
  · rw [arrDel_ok hr]
    exact ⟨Nat.le_trans (List.length_eraseIdx_le ..) h.1, fun x hx => h.2 x (List.mem_of_mem_eraseIdx hx)⟩
  · rw [arrDel_err hr]; exact h

theorem arrGet_state (i : Int) (l : List S) : (arrGet ops i l).2 = l := by
  rw [arrGet_run]

theorem arrGet_mem {i : Int} {l : List S} {v : V} {l' : List S} (h : arrGet ops i l = (.ok v, l')) :
    l' = l ∧ ∃ x ∈ l, ops.rd x = v := by
  have hs := arrGet_state (ops := ops) i l
  rw [h] at hs
  refine ⟨hs, ?_⟩
  by_cases hr : InRange l.length i
  · obtain ⟨w, hw, hg⟩ := arrGet_ok (ops := ops) hr
    rw [h] at hg
    simp only [Prod.mk.injEq, Except.ok.injEq] at hg
    have := List.mem_of_getElem? hw
    rw [List.mem_map] at this
    obtain ⟨x, hx, e⟩ := this
    exact ⟨x, hx, by rw [e, hg.1]⟩
  · rw [arrGet_err hr] at h
    simp at h

theorem arrSet_inv {l : List S} (h : ArrInv maxSize Q l) (i : Int) (v : V) (hv : ∀ x, ops.wr v = .ok x → Q x) :
    ArrInv maxSize Q (arrSet ops maxSize i v l).2 := by
  unfold arrSet
  split
  · exact h
  · cases hi : pyIndex l.length i with
    | none => exact h
    | some j =>
      have hj := (pyIndex_some_iff _ _ _).1 hi
      have hjl : j < l.length := hj.2 ▸ posOf_lt hj.1
      cases hw : ops.wr v with
      | error e => exact h
      | ok x =>
        refine ⟨?_, ?_⟩
        · have h1 := h.1
          simp only [List.length_append, List.length_take, List.length_cons, List.length_drop]; omega
        · intro y hy
          simp only [List.mem_append, List.mem_cons] at hy
          rcases hy with hy | rfl | hy
          · exact h.2 y (List.mem_of_mem_take hy)
          · exact hv _ hw
          · exact h.2 y (List.mem_of_mem_drop hy)

theorem arrInsert_inv {l : List S} (h : ArrInv maxSize Q l) (i : Int) (v : V) (hv : ∀ x, ops.wr v = .ok x → Q x) :
    ArrInv maxSize Q (arrInsert ops maxSize i v l).2 := by
  unfold arrInsert
  split
  · exact h
  · split
    · exact h
    · cases hw : ops.wr v with
      | error e => exact h
      | ok x =>
        have h1 := h.1
        refine ⟨?_, ?_⟩
        · simp only [pyListInsert, List.length_append, List.length_take, List.length_cons, List.length_drop]; omega
        · intro y hy
          simp only [pyListInsert, List.mem_append, List.mem_cons] at hy
          rcases hy with hy | rfl | hy
          · exact h.2 y (List.mem_of_mem_take hy)
          · exact hv _ hw
          · exact h.2 y (List.mem_of_mem_drop hy)

theorem arrExtend_inv (vs : List V) (hv : ∀ v ∈ vs, ∀ x, ops.wr v = .ok x → Q x) {l : List S} (h : ArrInv maxSize Q l) :
    ArrInv maxSize Q (arrExtend ops maxSize vs l).2 := by
  induction vs generalizing l with
  | nil => exact h
  | cons v vs ih =>
    unfold arrExtend PyM.forEach PyM.bind
    have h1 := arrInsert_inv (ops := ops) h l.length v (hv v (by simp))
    have e : arrAppend ops maxSize v l = arrInsert ops maxSize l.length v l := rfl
    rw [e]
    cases hc : arrInsert ops maxSize l.length v l with
    | mk r l' =>
      rw [hc] at h1
      cases r with
      | error err => exact h1
      | ok u => exact ih (fun w hw => hv w (by simp [hw])) h1

theorem arrReverseFrom_inv (hrd : ∀ y x, Q y → ops.wr (ops.rd y) = .ok x → Q x) (n k i : Nat) {l : List S}
    (h : ArrInv maxSize Q l) : ArrInv maxSize Q (arrReverseFrom ops maxSize n k i l).2 := by
  induction k generalizing i l with
  | zero => exact h
  | succ k ih =>
    simp only [arrReverseFrom, PyM.bind_run]
    cases h1 : arrGet ops ((n : Int) - i - 1) l with
    | mk r1 l1 =>
      cases r1 with
      | error e => have := arrGet_state (ops := ops) ((n : Int) - i - 1) l; rw [h1] at this; rw [← this] at h; exact h
      | ok a =>
        obtain ⟨rfl, x1, hx1, rfl⟩ := arrGet_mem h1
        simp only
        cases h2 : arrGet ops (i : Int) l1 with
        | mk r2 l2 =>
          cases r2 with
          | error e => have := arrGet_state (ops := ops) (i : Int) l1; rw [h2] at this; rw [← this] at h; exact h
          | ok b =>
            obtain ⟨rfl, x2, hx2, rfl⟩ := arrGet_mem h2
            simp only
            have h3 := arrSet_inv (ops := ops) h i (ops.rd x1) (fun x => hrd x1 x (h.2 _ hx1))
            cases h3c : arrSet ops maxSize (i : Int) (ops.rd x1) l2 with
            | mk r3 l3 =>
              rw [h3c] at h3
              cases r3 with
              | error e => exact h3
              | ok u =>
                simp only
                have h4 := arrSet_inv (ops := ops) h3 ((n : Int) - i - 1) (ops.rd x2) (fun x => hrd x2 x (h.2 _ hx2))
                cases h4c : arrSet ops maxSize ((n : Int) - i - 1) (ops.rd x2) l3 with
                | mk r4 l4 =>
                  rw [h4c] at h4
                  cases r4 with
                  | error e => exact h4
                  | ok u => exact ih (i + 1) h4

theorem arrExec_inv [DecidableEq V] (hrd : ∀ y x, Q y → ops.wr (ops.rd y) = .ok x → Q x) (op : ArrOp V)
    (hop : ∀ v, (op = .append v ∨ (∃ i, op = .insert i v) ∨ (∃ i, op = .setItem i v) ∨
      (∃ vs, op = .extend vs ∧ v ∈ vs) ∨ (∃ vs, op = .assign vs ∧ v ∈ vs) ∨ (∃ vs, op = .fromBytes vs ∧ v ∈ vs)) → ∀ x, ops.wr v = .ok x → Q x)
    {l : List S} (h : ArrInv maxSize Q l) : ArrInv maxSize Q (arrExec ops maxSize op l).2 := by
  cases op with
  | append v => exact arrInsert_inv h _ _ (hop v (.inl rfl))
  | insert i v => exact arrInsert_inv h _ _ (hop v (.inr (.inl ⟨i, rfl⟩)))
  | setItem i v => exact arrSet_inv h _ _ (hop v (.inr (.inr (.inl ⟨i, rfl⟩))))
  | delItem i => exact arrDel_inv h i
  | delSlice a b =>
    have h1 := h.1
    refine ⟨?_, ?_⟩
    · simp only [arrExec, arrDelSlice, List.length_append, List.length_take, List.length_drop]; omega
    · intro x hx
      simp only [arrExec, arrDelSlice, List.mem_append] at hx
      rcases hx with hx | hx
      · exact h.2 x (List.mem_of_mem_take hx)
      · exact h.2 x (List.mem_of_mem_drop hx)
  | pop i =>
    simp only [arrExec, PyM.bind_run]
    by_cases hr : InRange l.length i
    · obtain ⟨v, -, he⟩ := arrPop_ok (ops := ops) hr
      rw [he]
      have := arrDel_inv h i
      rw [arrDel_ok hr] at this
      exact this
    · rw [arrPop_err hr]; exact h
  | remove v =>
    simp only [arrExec, arrRemove]
    rw [arrIndexFrom_spec v l (l.length + 1) 0 (by omega) (by omega)]
    by_cases hm : v ∈ (l.map ops.rd).drop 0
    · rw [if_pos hm]; exact arrDel_inv h _
    · rw [if_neg hm]; exact h
  | reverse => exact arrReverseFrom_inv hrd _ _ _ h
  | clear =>
    simp only [arrExec, arrClear_run]
    exact ⟨by simp, by simp⟩
  | extend vs => exact arrExtend_inv vs (fun v hv => hop v (.inr (.inr (.inr (.inl ⟨vs, rfl, hv⟩))))) h
  | assign vs =>
    simp only [arrExec, arrSetAttr, arrClear_run]
    have := arrExtend_inv (ops := ops) (maxSize := maxSize) (Q := Q) vs
      (fun v hv => hop v (.inr (.inr (.inr (.inr (.inl ⟨vs, rfl, hv⟩)))))) (l := []) ⟨by simp, by simp⟩
    cases hc : arrExtend ops maxSize vs [] with
    | mk r l' =>
      rw [hc] at this
      cases r <;> exact this
  | fromBytes vs =>
    simp only [arrExec, arrAssignAll, PyM.bind_run, arrDelSlice_all]
    exact arrExtend_inv (ops := ops) (maxSize := maxSize) (Q := Q) vs
      (fun v hv => hop v (.inr (.inr (.inr (.inr (.inr ⟨vs, rfl, hv⟩)))))) (l := []) ⟨by simp, by simp⟩

end

/-! ## Well-formed objects -/

theorem IntTys_eq (fs : List Ty) : IntTys fs = fs.all IntTy := by
  induction fs with
  | nil => simp [IntTys]
  | cons f fs ih => simp [IntTys, ih]

theorem goodVal_arr (e : Ty) (d : Bool) (m : Nat) (v : Val) :
    goodVal (.arr e d m) v = true ↔ ∃ items, v = .arr items ∧ ArrInv m (fun w => goodVal e w = true) items := by
  cases v with
  | arr items =>
    simp only [goodVal, hasTy, withinCap, Bool.and_eq_true, List.all_eq_true, decide_eq_true_eq, Val.arr.injEq,
      exists_eq_left', ArrInv]
    constructor
    · rintro ⟨h1, h2, h3⟩
      exact ⟨h3, fun x hx => ⟨h1 x hx, h2 x hx⟩⟩
    · rintro ⟨h3, h⟩
      exact ⟨fun x hx => (h x hx).1, fun x hx => (h x hx).2, h3⟩
  | _ => simp [goodVal, hasTy]

theorem goodVals_iff (fs : List Ty) (vs : List Val) :
    (hasTys fs vs && withinCaps fs vs) = true ↔
      fs.length = vs.length ∧ ∀ (i : Nat) f v, fs[i]? = some f → vs[i]? = some v → goodVal f v = true := by
  induction fs generalizing vs with
  | nil => cases vs <;> simp [hasTys, withinCaps]
  | cons f fs ih =>
    cases vs with
    | nil => simp [hasTys]
    | cons v vs =>
      simp only [hasTys, withinCaps, List.length_cons, Bool.and_eq_true]
      constructor
      · rintro ⟨⟨h1, h2⟩, h3, h4⟩
        have := (ih vs).1 (by simp [h2, h4])
        refine ⟨by omega, ?_⟩
        intro i g w hg hw
        cases i with
        | zero => simp at hg hw; subst hg hw; simp [goodVal, h1, h3]
        | succ i => exact this.2 i g w (by simpa using hg) (by simpa using hw)
      · rintro ⟨h1, h2⟩
        have a := h2 0 f v rfl rfl
        have b := (ih vs).2 ⟨by omega, fun i g w hg hw => h2 (i + 1) g w (by simpa using hg) (by simpa using hw)⟩
        simp only [goodVal, Bool.and_eq_true] at a b
        exact ⟨⟨a.1, b.1⟩, a.2, b.2⟩

theorem goodVal_comp (u : Bool) (fs : List Ty) (v : Val) :
    goodVal (.comp u fs) v = true ↔ ∃ active vs, v = .comp active vs ∧ fs.length = vs.length ∧
      (∀ (i : Nat) f w, fs[i]? = some f → vs[i]? = some w → goodVal f w = true) ∧
      (∀ i, active = some i → u = true ∧ i < fs.length) := by
  cases v with
  | comp active vs =>
    rw [goodVal]
    simp only [hasTy, withinCap, Val.comp.injEq, Bool.and_eq_true]
    have hiff := goodVals_iff fs vs
    simp only [Bool.and_eq_true] at hiff
    constructor
    · rintro ⟨⟨h1, h2⟩, h3⟩
      obtain ⟨ha, hb⟩ := hiff.1 ⟨h1, h3⟩
      refine ⟨active, vs, ⟨rfl, rfl⟩, ha, hb, ?_⟩
      rintro i rfl
      simpa using h2
    · rintro ⟨a, w, ⟨rfl, rfl⟩, ha, hb, hc⟩
      obtain ⟨h1, h3⟩ := hiff.2 ⟨ha, hb⟩
      refine ⟨⟨h1, ?_⟩, h3⟩
      cases active with
      | none => rfl
      | some i => simpa using hc i rfl
  | _ => simp [goodVal, hasTy]

theorem valElem_typed (e : Ty) (he : IntTy e = true) (x : Elt) (hx : eltTyped e x = true) (v : Val)
    (h : (valElem e).wr x = .ok v) : goodVal e v = true := by
  cases e with
  | prim p =>
    simp only [IntTy, Bool.and_eq_true, decide_eq_true_eq, Bool.or_eq_true, bne_iff_ne, ne_eq] at he
    cases x with
    | int n =>
      simp only [valElem] at h
      cases hs : setInt p n with
      | error err => simp [hs] at h
      | ok b =>
        simp only [hs, Except.ok.injEq] at h
        subst h
        have := setInt_length p he.1.1 he.1.2 (fun hb => he.2.resolve_left (fun hne => hne hb)) n b hs
        simp [goodVal, hasTy, withinCap, this]
    | obj w => simp [valElem] at h
  | void n => cases x <;> simp [valElem] at h; subst h; exact hx
  | arr e d m => cases x <;> simp [valElem] at h; subst h; exact hx
  | comp u fs => cases x <;> simp [valElem] at h; subst h; exact hx

theorem valElem_rd (e : Ty) (he : IntTy e = true) (y x : Val) (hy : goodVal e y = true)
    (h : (valElem e).wr ((valElem e).rd y) = .ok x) : goodVal e x = true := by
  apply valElem_typed e he _ _ _ h
  cases e with
  | prim p => cases y <;> simp [valElem, eltTyped, hy]
  | _ => simp only [valElem, eltTyped, hy]

theorem arrExec_good (e : Ty) (he : IntTy e = true) (m : Nat) (op : ArrOp Elt) (hop : arrOpTyped e op = true)
    (items : List Val) (h : ArrInv m (fun w => goodVal e w = true) items) :
    ArrInv m (fun w => goodVal e w = true) (arrExec (valElem e) m op items).2 := by
  apply arrExec_inv (fun y x => valElem_rd e he y x) op _ h
  rintro v (rfl | ⟨i, rfl⟩ | ⟨i, rfl⟩ | ⟨vs, rfl, hv⟩ | ⟨vs, rfl, hv⟩ | ⟨vs, rfl, hv⟩) x hx
  · exact valElem_typed e he _ hop _ hx
  · exact valElem_typed e he _ hop _ hx
  · exact valElem_typed e he _ hop _ hx
  · exact valElem_typed e he _ (List.all_eq_true.1 hop v hv) _ hx
  · exact valElem_typed e he _ (List.all_eq_true.1 hop v hv) _ hx
  · exact valElem_typed e he _ (List.all_eq_true.1 hop v hv) _ hx

theorem assignField_good (t : Ty) (ht : IntTy t = true) (old : Val) (a : Arg) (ho : goodVal t old = true)
    (ha : match t, a with
      | .comp u gs, .obj same v => same = true → goodVal (.comp u gs) v = true
      | .arr e _ _, .list xs => xs.all (eltTyped e) = true
      | _, _ => True) :
    goodVal t (assignField t old a).2 = true := by
  cases t with
  | void n => cases a <;> simpa [assignField] using ho
  | prim p =>
    simp only [IntTy, Bool.and_eq_true, decide_eq_true_eq, Bool.or_eq_true, bne_iff_ne, ne_eq] at ht
    cases a with
    | int x =>
      simp only [assignField]
      cases hs : setInt p x with
      | error err => exact ho
      | ok b =>
        have := setInt_length p ht.1.1 ht.1.2 (fun hb => ht.2.resolve_left (fun hne => hne hb)) x b hs
        simp [goodVal, hasTy, withinCap, this]
    | obj s v => simpa [assignField] using ho
    | list xs => simpa [assignField] using ho
  | comp u fs =>
    cases a with
    | int x => simpa [assignField] using ho
    | list xs => simpa [assignField] using ho
    | obj s v =>
      simp only [assignField]
      cases s with
      | true => exact ha rfl
      | false => exact ho
  | arr e d m =>
    obtain ⟨items, rfl, hinv⟩ := (goodVal_arr e d m old).1 ho
    simp only [IntTy] at ht
    cases a with
    | int x =>
      simp only [assignField, arrClear_run]
      exact (goodVal_arr e d m _).2 ⟨[], rfl, by simp, by simp⟩
    | obj s v =>
      simp only [assignField, arrClear_run]
      exact (goodVal_arr e d m _).2 ⟨[], rfl, by simp, by simp⟩
    | list xs =>
      simp only [assignField]
      have := arrExec_good e ht m (.assign xs) ha items hinv
      simp only [arrExec] at this
      exact (goodVal_arr e d m _).2 ⟨_, rfl, this⟩

theorem touch_ok {u : Bool} {active active' : Option Nat} {i : Nat} (h : touch u active i = .ok active') :
    active' = if u then some i else active := by
  unfold touch at h
  cases u with
  | false => simpa using h.symm
  | true =>
    cases active with
    | none => simpa using h.symm
    | some j =>
      simp only [if_true] at h
      split at h
      · cases h
      · simpa using h.symm

theorem goodVal_set (u : Bool) (fs : List Ty) (active active' : Option Nat) (vs : List Val) (i : Nat) (f : Ty) (w : Val)
    (h : goodVal (.comp u fs) (.comp active vs) = true) (hf : fs[i]? = some f)
    (ht : touch u active i = .ok active') (hw : goodVal f w = true) :
    goodVal (.comp u fs) (.comp active' (vs.set i w)) = true := by
  obtain ⟨a, vs', he, h1, h2, h3⟩ := (goodVal_comp u fs _).1 h
  simp only [Val.comp.injEq] at he
  obtain ⟨rfl, rfl⟩ := he
  have hi : i < fs.length := by
    rw [List.getElem?_eq_some_iff] at hf; exact hf.1
  refine (goodVal_comp u fs _).2 ⟨active', vs.set i w, rfl, by simp [h1], ?_, ?_⟩
  · intro j g x hg hx
    rw [List.getElem?_set] at hx
    split at hx
    · rename_i hij
      subst hij
      split at hx
      · simp only [Option.some.injEq] at hx
        subst hx
        rw [hf] at hg
        simp only [Option.some.injEq] at hg
        subst hg; exact hw
      · cases hx
    · exact h2 j g x hg hx
  · intro j hj
    rw [touch_ok ht] at hj
    cases u with
    | true => simp at hj; subst hj; exact ⟨rfl, hi⟩
    | false => simp at hj; exact h3 j hj

theorem execOp_good (t : Ty) (ht : IntTy t = true) (v : Val) (hv : goodVal t v = true) (op : ObjOp)
    (hop : opTyped t op = true) : goodVal t (execOp t v op).2 = true := by
  cases t with
  | void n => simpa [execOp] using hv
  | prim p => simpa [execOp] using hv
  | arr e d m =>
    obtain ⟨items, rfl, hinv⟩ := (goodVal_arr e d m v).1 hv
    cases op with
    | arr op =>
      simp only [execOp]
      have := arrExec_good e ht m op hop items hinv
      cases hc : arrExec (valElem e) m op items with
      | mk r l =>
        rw [hc] at this
        cases r <;> exact (goodVal_arr e d m _).2 ⟨_, rfl, this⟩
    | _ => simpa [execOp] using hv
  | comp u fs =>
    obtain ⟨active, vs, rfl, h1, h2, h3⟩ := (goodVal_comp u fs v).1 hv
    cases op with
    | get i =>
      simp only [execOp]
      cases hf : fs[i]? with
      | none => exact hv
      | some f =>
        cases hw : vs[i]? with
        | none => exact hv
        | some w =>
          simp only
          cases hto : touch u active i with
          | error e => exact hv
          | ok a =>
            have := goodVal_set u fs active a vs i f w hv hf hto (h2 i f w hf hw)
            have he : vs.set i w = vs := by
              obtain ⟨hlt, hw'⟩ := List.getElem?_eq_some_iff.1 hw
              rw [← hw']; exact List.set_getElem_self ..
            rw [he] at this
            exact this
    | set i a =>
      simp only [execOp]
      cases hf : fs[i]? with
      | none => exact hv
      | some f =>
        cases hw : vs[i]? with
        | none => exact hv
        | some w =>
          simp only
          cases hto : touch u active i with
          | error e => exact hv
          | ok act =>
            have hif : IntTy f = true := by
              simp only [IntTy, IntTys_eq, List.all_eq_true] at ht
              exact ht f (List.mem_of_getElem? hf)
            have := assignField_good f hif w a (h2 i f w hf hw) (by
              simp only [opTyped, hf] at hop
              cases f <;> cases a <;> simp_all
              rename_i s _
              cases s <;> simp_all)
            simp only
            cases hc : assignField f w a with
            | mk r w' =>
              rw [hc] at this
              cases r <;> exact goodVal_set u fs active act vs i f w' hv hf hto this
    | switch o =>
      simp only [execOp]
      cases u with
      | false => exact hv
      | true =>
        refine (goodVal_comp true fs _).2 ⟨o, vs, rfl, h1, h2, ?_⟩
        intro i hi
        subst hi
        simp only [opTyped, decide_eq_true_eq] at hop
        exact ⟨rfl, hop⟩
    | decode s tao => simp [opTyped] at hop
    | arr op => simpa [execOp] using hv

theorem access_good (t : Ty) (ht : IntTy t = true) (v : Val) (hv : goodVal t v = true) (path : List PathStep) (op : ObjOp)
    (hop : accessTyped t path op = true) : goodVal t (access t v path op).2 = true := by
  induction path generalizing t v with
  | nil => simp only [accessTyped] at hop; simp only [access]; exact execOp_good t ht v hv op hop
  | cons st path ih =>
    cases st with
    | field i =>
      cases t with
      | comp u fs =>
        obtain ⟨active, vs, rfl, h1, h2, h3⟩ := (goodVal_comp u fs v).1 hv
        simp only [access]
        cases hf : fs[i]? with
        | none => exact hv
        | some f =>
          cases hw : vs[i]? with
          | none => exact hv
          | some w =>
            simp only
            cases hto : touch u active i with
            | error e => exact hv
            | ok act =>
              simp only [accessTyped, hf] at hop
              have hif : IntTy f = true := by
                simp only [IntTy, IntTys_eq, List.all_eq_true] at ht
                exact ht f (List.mem_of_getElem? hf)
              exact goodVal_set u fs active act vs i f _ hv hf hto (ih f hif w (h2 i f w hf hw) hop)
      | _ => simpa [access] using hv
    | item i =>
      cases t with
      | arr e d m =>
        obtain ⟨items, rfl, hinv⟩ := (goodVal_arr e d m v).1 hv
        simp only [access]
        cases hi : pyIndex items.length i with
        | none => exact hv
        | some j =>
          simp only
          cases hw : items[j]? with
          | none => exact hv
          | some w =>
            simp only [accessTyped] at hop
            have := ih e ht w (hinv.2 w (List.mem_of_getElem? hw)) hop
            refine (goodVal_arr e d m _).2 ⟨_, rfl, by simpa using hinv.1, ?_⟩
            intro x hx
            rcases List.mem_or_eq_of_mem_set hx with hx | rfl
            · exact hinv.2 x hx
            · exact this
      | _ => simpa [access] using hv

theorem withinCap_newVal (t : Ty) : withinCap t (newVal t) = true := by
  induction t using Ty.induct with
  | void n => simp [newVal, withinCap]
  | prim p => simp [newVal, withinCap]
  | arr e d m ih => cases d <;> simp [newVal, withinCap, ih]
  | comp u fs ih =>
    simp only [newVal, withinCap]
    induction fs with
    | nil => simp [newVals, withinCaps]
    | cons f fs ihf =>
      simp only [newVals, withinCaps, Bool.and_eq_true]
      exact ⟨ih f (by simp), ihf (fun g hg => ih g (by simp [hg]))⟩

theorem goodVal_newVal (t : Ty) : goodVal t (newVal t) = true := by
  simp [goodVal, hasTy_newVal, withinCap_newVal]

end Dronecan
