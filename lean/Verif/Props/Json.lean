import Verif.Proofs.Display

/-!
# C98: the representation of a value for JSON
-/

namespace Dronecan
namespace Display

open Text Float16 YamlSpec

/-- Every value has a representation for JSON, and it says what the value is. -/
def C98_statement : Prop :=
  ∀ (t : NTy) (v : Val), WfN t = true → hasTy t.ty v = true → ∃ j, toJson t v = .ok j ∧ (t.isVoid = true ∨ Means jsonForm t v j)

mutual
/-- No text that is not empty is shown: no non-empty dynamic array of 8-bit integers. -/
def textless : NTy → Val → Bool
  | .arr e dynamic _, .arr items =>
    match e with
    | .prim p => !(dynamic && p.bitlen == 8) || items.isEmpty
    | e => items.all fun v => textless e v
  | .comp false _ _ fs, .comp _ vs => textlessFields fs vs
  | .comp true _ _ fs, .comp active vs =>
    match active with
    | none => true
    | some i => textlessNth i fs vs
  | _, _ => true
/-- In every field. -/
def textlessFields : List NTy → List Val → Bool
  | f :: fs, v :: vs => textless f v && textlessFields fs vs
  | _, _ => true
/-- In the field in position `i`. -/
def textlessNth : Nat → List NTy → List Val → Bool
  | 0, f :: _, v :: _ => textless f v
  | i + 1, _ :: fs, _ :: vs => textlessNth i fs vs
  | _, _, _ => true
end

theorem jsonLeaf_means (p : PrimTy) (bits : Bits) (x : Py) (h : PyMeans p bits x) : ∃ j, jsonLeaf x = .ok j ∧ MeansPrim jsonForm p bits j := by
  unfold PyMeans at h
  unfold MeansPrim
  cases hk : p.kind <;> rw [hk] at h <;> simp only at h ⊢
  · subst h; exact ⟨_, rfl, rfl⟩
  · subst h; exact ⟨_, rfl, rfl⟩
  · subst h; exact ⟨_, rfl, rfl⟩
  · obtain ⟨f, h1, rfl⟩ := h
    exact ⟨_, rfl, f, h1, rfl⟩

theorem tys_length (fs : List NTy) : (NTy.tys fs).length = fs.length := by
  induction fs with
  | nil => rfl
  | cons f fs ih => simp [NTy.tys, ih]

/-- What is to be shown of a value: success with the meaning, or the exception. -/
def JsonOk (t : NTy) (v : Val) : Prop :=
  cond (textless t v) (∃ j, toJson t v = .ok j ∧ (t.isVoid = true ∨ Means jsonForm t v j)) (toJson t v = .error .attributeError)

theorem jsonFields_none (names : List Str) (fs : List NTy) (vs : List Val) (active : Option Nat) (i : Nat) (hn : names.length = fs.length) (hv : hasTys (NTy.tys fs) vs = true)
    (h : ∀ k, active = some k → k < i) : jsonFields true active i names fs vs = .ok [] := by
  induction fs generalizing names vs i with
  | nil => cases vs <;> simp [NTy.tys, hasTys] at hv; simp [jsonFields]
  | cons f fs ih =>
    cases vs with
    | nil => simp [NTy.tys, hasTys] at hv
    | cons v vs =>
      cases names with
      | nil => simp at hn
      | cons name names =>
        simp only [jsonFields]
        rw [if_pos ⟨trivial, fun hk => by have := h i hk; omega⟩]
        refine ih names vs (i + 1) (by simpa using hn) (by simp [NTy.tys, hasTys] at hv; exact hv.2) ?_
        intro k hk
        have := h k hk
        omega

mutual
theorem toJson_ok : ∀ (t : NTy) (v : Val), WfN t = true → hasTy t.ty v = true → JsonOk t v
  | .void n, v, _, hv => by
    cases v <;> simp [NTy.ty, hasTy] at hv
    simp [JsonOk, textless, toJson, NTy.isVoid]
  | .prim p, v, hw, hv => by
    obtain ⟨bits, rfl, hb⟩ := prim_item p v hv
    obtain ⟨x, hx, hm⟩ := primValue_means p bits hw hb
    obtain ⟨j, hj, hmj⟩ := jsonLeaf_means p bits x hm
    unfold JsonOk
    simp only [textless, cond_true]
    exact ⟨j, by simp only [toJson, hx]; exact hj, .inr (by simp only [Means]; exact hmj)⟩
  | .arr (.prim p) d m, v, hw, hv => by
    cases v <;> simp [NTy.ty, hasTy] at hv
    rename_i items
    have hw : WfN (.prim p) = true := by simp only [WfN, Bool.and_eq_true] at hw ⊢; exact hw.2
    unfold JsonOk
    simp only [textless, toJson, NTy.primOf]
    by_cases hs : (d && p.bitlen == 8) = true
    · have hs' : stringLike p d = true := hs
      simp only [hs', if_true, hs, Bool.not_true, Bool.false_or]
      cases items with
      | nil =>
        simp only [List.isEmpty_nil, cond_true]
        refine ⟨_, rfl, .inr ?_⟩
        simp only [Means]
        simp only [Bool.and_eq_true, beq_iff_eq] at hs
        exact .inr ⟨[], p, rfl, hs.2, hs.1, rfl, .nil⟩
      | cons v vs =>
        simp only [List.isEmpty_cons, cond_false]
        obtain ⟨bits, rfl, hb⟩ := prim_item p v (by simp only [NTy.ty]; exact hv v (by simp))
        obtain ⟨x, hx, _⟩ := itemValue_means p bits hw hb
        simp only [hx]
        rfl
    · have hs : (d && p.bitlen == 8) = false := by simpa using hs
      have hs' : stringLike p d = false := hs
      simp only [hs, hs', Bool.not_false, Bool.true_or, cond_true]
      have := mapM_each (fun v => do jsonLeaf (← itemValue p v)) (fun v y => Means jsonForm (.prim p) v y) (fun _ => true) .valueError items (by
        intro v hvm
        obtain ⟨bits, rfl, hb⟩ := prim_item p v (by simp only [NTy.ty]; exact hv v hvm)
        obtain ⟨x, hx, hm⟩ := itemValue_means p bits hw hb
        obtain ⟨j, hj, hmj⟩ := jsonLeaf_means p bits x hm
        exact ⟨j, by simp only [hx]; exact hj, by simp only [Means]; exact hmj⟩)
      rw [List.all_eq_true.2 (by simp)] at this
      obtain ⟨js, hj, he⟩ := this
      rw [if_neg (by simp), hj]
      refine ⟨_, rfl, .inr ?_⟩
      simp only [Means]
      exact .inl ⟨js, rfl, he⟩
  | .arr (.comp u cs ns fs) d m, v, hw, hv => by
    cases v <;> simp only [NTy.ty, hasTy, Bool.false_eq_true] at hv
    rename_i items
    have hw : WfN (.comp u cs ns fs) = true := by rw [WfN, Bool.and_eq_true] at hw; exact hw.2
    have h := mapM_each (fun v => toJson (.comp u cs ns fs) v) (fun v y => Means jsonForm (.comp u cs ns fs) v y) (fun v => textless (.comp u cs ns fs) v) .attributeError items (by
      intro v hvm
      have := toJson_ok (.comp u cs ns fs) v hw (by simp only [NTy.ty]; exact List.all_eq_true.1 hv v hvm)
      unfold JsonOk at this
      cases ht : textless (.comp u cs ns fs) v <;> rw [ht] at this
      · exact this
      · obtain ⟨j, h1, h2⟩ := this
        exact ⟨j, h1, h2.resolve_left (by simp [NTy.isVoid])⟩)
    unfold JsonOk
    simp only [toJson, NTy.primOf, textless]
    rcases Bool.eq_false_or_eq_true (items.all (fun v => textless (.comp u cs ns fs) v)) with ha | ha <;> rw [ha] at h ⊢ <;> simp only [cond_true, cond_false] at h ⊢
    · obtain ⟨js, hj, he⟩ := h
      rw [hj]
      refine ⟨_, rfl, .inr ?_⟩
      simp only [Means]
      exact .inl ⟨js, rfl, he⟩
    · rw [h]
      rfl
  | .arr (.void _) d m, v, hw, hv => by simp [WfN] at hw
  | .arr (.arr ..) d m, v, hw, hv => by simp [WfN] at hw
  | .comp false cs ns fs, v, hw, hv => by
    cases v <;> simp only [NTy.ty, hasTy, Bool.false_eq_true] at hv
    rename_i active vs
    rw [Bool.and_eq_true] at hv
    simp only [WfN, Bool.and_eq_true, beq_iff_eq] at hw
    have := jsonFields_ok ns fs vs active 0 hw.1.1.1.1 hw.1.2 hv.1
    unfold JsonOk
    simp only [textless, toJson]
    rcases Bool.eq_false_or_eq_true (textlessFields fs vs) with ht | ht <;> rw [ht] at this ⊢ <;> simp only [cond_true, cond_false] at this ⊢
    · obtain ⟨kvs, hk, hm⟩ := this
      rw [hk]
      refine ⟨_, rfl, .inr ?_⟩
      simp only [Means]
      exact ⟨kvs, rfl, hm⟩
    · rw [this]
      rfl
  | .comp true cs ns fs, v, hw, hv => by
    cases v <;> simp only [NTy.ty, hasTy, Bool.false_eq_true] at hv
    rename_i active vs
    rw [Bool.and_eq_true] at hv
    simp only [WfN, Bool.and_eq_true, beq_iff_eq, Bool.not_true, Bool.false_or] at hw
    unfold JsonOk
    simp only [textless, toJson]
    cases active with
    | none =>
      rw [jsonFields_none ns fs vs none 0 hw.1.1.1.1 hv.1 (by intro k hk; cases hk)]
      simp only [cond_true]
      refine ⟨_, rfl, .inr ?_⟩
      simp only [Means]
      rfl
    | some k =>
      have hk : k < fs.length := by have := hv.2; simp [tys_length] at this; exact this
      have := jsonNth_ok ns fs vs k 0 k (by omega) hk hw.1.1.1.1 hw.1.2 hw.2 hv.1
      simp only
      rcases Bool.eq_false_or_eq_true (textlessNth k fs vs) with ht | ht <;> rw [ht] at this ⊢ <;> simp only [cond_true, cond_false] at this ⊢
      · obtain ⟨kv, hk, hm⟩ := this
        rw [hk]
        refine ⟨_, rfl, .inr ?_⟩
        simp only [Means]
        exact ⟨kv, rfl, hm⟩
      · rw [this]
        rfl
theorem jsonFields_ok : ∀ (names : List Str) (fs : List NTy) (vs : List Val) (active : Option Nat) (i : Nat), names.length = fs.length → WfNs fs = true →
    hasTys (NTy.tys fs) vs = true →
    cond (textlessFields fs vs) (∃ kvs, jsonFields false active i names fs vs = .ok kvs ∧ MeansFields jsonForm names fs vs kvs)
      (jsonFields false active i names fs vs = .error .attributeError)
  | names, [], vs, active, i, hn, hw, hv => by
    cases vs <;> simp [NTy.tys, hasTys] at hv
    cases names <;> simp at hn
    simp [textlessFields, jsonFields, MeansFields]
  | names, f :: fs, vs, active, i, hn, hw, hv => by
    cases vs with
    | nil => simp [NTy.tys, hasTys] at hv
    | cons v vs =>
      cases names with
      | nil => simp at hn
      | cons name names =>
        simp only [NTy.tys, hasTys, Bool.and_eq_true] at hv
        simp only [WfNs, Bool.and_eq_true] at hw
        have h1 := toJson_ok f v hw.1 hv.1
        have h2 := jsonFields_ok names fs vs active (i + 1) (by simpa using hn) hw.2 hv.2
        unfold JsonOk at h1
        simp only [jsonFields, textlessFields]
        rw [if_neg (by simp)]
        by_cases hvd : f.isVoid = true
        · cases f <;> simp [NTy.isVoid] at hvd
          have ht : textless (.void ‹_›) v = true := by cases v <;> rfl
          rw [ht, Bool.true_and]
          simp only [NTy.isVoid, if_true, MeansFields]
          exact h2
        · rw [if_neg hvd]
          rcases Bool.eq_false_or_eq_true (textless f v) with ht1 | ht1 <;> rw [ht1] at h1 ⊢ <;>
            simp only [cond_true, cond_false, Bool.true_and, Bool.false_and] at h1 ⊢
          · obtain ⟨j, hj, hm⟩ := h1
            have hm := hm.resolve_left hvd
            rw [hj]
            rcases Bool.eq_false_or_eq_true (textlessFields fs vs) with ht2 | ht2 <;> rw [ht2] at h2 ⊢ <;> simp only [cond_true, cond_false] at h2 ⊢
            · obtain ⟨kvs, hk, hms⟩ := h2
              rw [hk]
              refine ⟨_, rfl, ?_⟩
              cases f <;> first | (simp [NTy.isVoid] at hvd; done) | (simp only [MeansFields]; exact ⟨j, kvs, rfl, hm, hms⟩)
            · rw [h2]
              rfl
          · rw [h1]
            rfl
theorem jsonNth_ok : ∀ (names : List Str) (fs : List NTy) (vs : List Val) (a i k : Nat), a = i + k → k < fs.length → names.length = fs.length → WfNs fs = true →
    fs.all (fun f => !f.isVoid) = true → hasTys (NTy.tys fs) vs = true →
    cond (textlessNth k fs vs) (∃ kv, jsonFields true (some a) i names fs vs = .ok [kv] ∧ MeansNth jsonForm k names fs vs kv)
      (jsonFields true (some a) i names fs vs = .error .attributeError)
  | names, [], vs, a, i, k, ha, hk, hn, hw, hvd, hv => by simp at hk
  | names, f :: fs, vs, a, i, k, ha, hk, hn, hw, hvd, hv => by
    cases vs with
    | nil => simp [NTy.tys, hasTys] at hv
    | cons v vs =>
      cases names with
      | nil => simp at hn
      | cons name names =>
        simp only [NTy.tys, hasTys, Bool.and_eq_true] at hv
        simp only [WfNs, Bool.and_eq_true] at hw
        simp only [List.all_cons, Bool.and_eq_true, Bool.not_eq_true'] at hvd
        cases k with
        | zero =>
          have h1 := toJson_ok f v hw.1 hv.1
          unfold JsonOk at h1
          simp only [jsonFields, textlessNth]
          rw [if_neg (by rintro ⟨_, h⟩; exact h (by rw [ha]; rfl)), hvd.1]
          rw [jsonFields_none names fs vs (some a) (i + 1) (by simpa using hn) hv.2 (by intro k hk; cases hk; omega)]
          rcases Bool.eq_false_or_eq_true (textless f v) with ht1 | ht1 <;> rw [ht1] at h1 ⊢ <;> simp only [cond_true, cond_false] at h1 ⊢
          · obtain ⟨j, hj, hm⟩ := h1
            have hm := hm.resolve_left (by simp [hvd.1])
            rw [hj]
            exact ⟨(name, j), rfl, by simp only [MeansNth]; exact ⟨trivial, hm⟩⟩
          · rw [h1]
            rfl
        | succ k =>
          have := jsonNth_ok names fs vs a (i + 1) k (by omega) (by simpa using hk) (by simpa using hn) hw.2 hvd.2 hv.2
          simp only [jsonFields, textlessNth, MeansNth]
          rw [if_pos ⟨trivial, by intro h; cases h; omega⟩]
          exact this
end

/-- A value of which no text is shown has a representation, and it says what the value is: the missing part are values with texts. -/
theorem C98_partial (t : NTy) (v : Val) (hw : WfN t = true) (hv : hasTy t.ty v = true) (h : textless t v = true) :
    ∃ j, toJson t v = .ok j ∧ (t.isVoid = true ∨ Means jsonForm t v j) := by
  have := toJson_ok t v hw hv
  unfold JsonOk at this
  rw [h] at this
  exact this

/-- A value with a text has none: the function raises `AttributeError`. -/
theorem C98_raises (t : NTy) (v : Val) (hw : WfN t = true) (hv : hasTy t.ty v = true) (h : textless t v = false) : toJson t v = .error .attributeError := by
  have := toJson_ok t v hw hv
  unfold JsonOk at this
  rw [h] at this
  exact this

/-- Numbers that were never assigned: in an array they are shown as zeros, as fields they have no representation. -/
theorem C98_unset (p : PrimTy) (dynamic : Bool) (m n : Nat) (h : stringLike p dynamic = false) :
    toJson (.arr (.prim p) dynamic m) (.arr (List.replicate n (.prim []))) = .ok (.list (List.replicate n (.int 0))) ∧
    ∃ e, toJson (.prim p) (.prim []) = .error e := by
  constructor
  · have hm : (List.replicate n (Val.prim [])).mapM (fun v => do jsonLeaf (← itemValue p v)) = .ok (List.replicate n (.int 0)) := by
      induction n with
      | zero => rfl
      | succ n ih =>
        rw [List.replicate_succ, List.mapM_cons, ih]
        rfl
    simp only [toJson, NTy.primOf, h, Bool.false_eq_true, if_false, hm]
    rfl
  · exact ⟨.valueError, rfl⟩

example : stringLike ⟨.unsigned, 8, false⟩ false = false := rfl

/-! ## Examples -/

private def u8 : PrimTy := ⟨.unsigned, 8, false⟩
private def b8 (n : Nat) : Val := .prim (formatBin 8 n)
/-- A structure with padding, a number, a list, a union. -/
private def exT : NTy := .comp false [] ["pad".toList, "level".toList, "list".toList, "choice".toList]
  [.void 3, .prim ⟨.signed, 8, false⟩, .arr (.prim ⟨.unsigned, 4, false⟩) true 5, .comp true [] ["a".toList, "b".toList] [.prim ⟨.boolean, 1, false⟩, .prim u8]]
private def exV : Val := .comp none [.void, b8 255, .arr [.prim (formatBin 4 3), .prim (formatBin 4 9)], .comp (some 1) [.prim [true], b8 7]]

example : WfN exT = true ∧ hasTy exT.ty exV = true ∧ textless exT exV = true := by decide +kernel

example : toJson exT exV = .ok (.obj [("level".toList, .int (-1)), ("list".toList, .list [.int 3, .int 9]), ("choice".toList, .obj [("b".toList, .int 7)])]) := rfl

/-- The name of a node. -/
private def nameT : NTy := .comp false [] ["name".toList] [.arr (.prim u8) true 80]

example : WfN nameT = true ∧ hasTy nameT.ty (.comp none [.arr [b8 97]]) = true ∧ textless nameT (.comp none [.arr [b8 97]]) = false := by decide +kernel

example : toJson nameT (.comp none [.arr []]) = .ok (.obj [("name".toList, .str [])]) := rfl

/-- A text of one character. -/
theorem C98_counterexample : ¬ C98_statement := by
  intro h
  obtain ⟨j, hj, _⟩ := h nameT (.comp none [.arr [b8 97]]) (by decide +kernel) (by decide +kernel)
  rw [C98_raises nameT _ (by decide +kernel) (by decide +kernel) (by decide +kernel)] at hj
  cases hj

end Display
end Dronecan
