import Verif.Props.Codec

/-!
C07, the bounds are exact: the maximum bit length of a type is the length of the encoding of some value, and so is the minimum bit length of a type
without dynamic arrays. (The minimum reported for a dynamic array is 0, which only an empty array at the end of a transfer takes.)
-/

namespace Dronecan
namespace CodecBounds

mutual
/-- The type has no dynamic arrays. -/
def Static : Ty → Bool
  | .void _ => true
  | .prim _ => true
  | .arr e dynamic _ => !dynamic && Static e
  | .comp _ fs => Statics fs
/-- All the types of a list. -/
def Statics : List Ty → Bool
  | [] => true
  | f :: fs => Static f && Statics fs
end

theorem Statics_all (fs : List Ty) : Statics fs = true → ∀ f ∈ fs, Static f = true := by
  induction fs with
  | nil => intro _ f hf; cases hf
  | cons g fs ih =>
    intro h f hf
    simp only [Statics, Bool.and_eq_true] at h
    rcases List.mem_cons.1 hf with rfl | hf
    · exact h.1
    · exact ih h.2 f hf

/-- The encoding of some value has this length. -/
def Attains (t : Ty) (n : Nat) : Prop := ∃ v, hasTy t v = true ∧ ∃ bits, pack t v false = .ok bits ∧ bits.length = n

theorem seq_length (e : Ty) (v : Val) (b : Bits) (h : pack e v false = .ok b) (m : Nat) :
    ∃ bits, packSeq (fun v t => pack e v t) false (List.replicate m v) = .ok bits ∧ bits.length = m * b.length := by
  induction m with
  | zero => exact ⟨[], rfl, by simp⟩
  | succ m ih =>
    cases m with
    | zero => exact ⟨b, h, by simp⟩
    | succ m =>
      obtain ⟨bits, h1, h2⟩ := ih
      refine ⟨b ++ bits, ?_, ?_⟩
      · rw [List.replicate_succ, List.replicate_succ, packSeq]
        · rw [← List.replicate_succ, h1]
          simp [h, bind, Except.bind, pure, Except.pure]
        · intro h; simp at h
      · rw [List.length_append, h2, Nat.succ_mul (m + 1)]
        omega

theorem fields_length (L : Ty → Nat) (fs : List Ty) (H : ∀ f ∈ fs, Attains f (L f)) :
    ∃ vs, hasTys fs vs = true ∧ ∃ bits, packFields fs vs false = .ok bits ∧ bits.length = (fs.map L).sum := by
  induction fs with
  | nil => exact ⟨[], rfl, [], by simp [packFields], rfl⟩
  | cons f fs ih =>
    obtain ⟨v, v1, b, v2, v3⟩ := H f (by simp)
    cases fs with
    | nil => exact ⟨[v], by simp [hasTys, v1], b, by simp [packFields, v2], by simp [v3]⟩
    | cons g fs =>
      obtain ⟨vs, w1, bits, w2, w3⟩ := ih fun x hx => H x (by simp [hx])
      refine ⟨v :: vs, by simp only [hasTys, Bool.and_eq_true] at w1 ⊢; exact ⟨v1, w1⟩, b ++ bits, ?_, ?_⟩
      · rw [packFields]
        · simp [v2, w2, bind, Except.bind, pure, Except.pure]
        · intro h; simp at h
      · rw [List.length_append, v3, w3]; simp

theorem nth_length (fs : List Ty) (f : Ty) (n : Nat) (hf : f ∈ fs) (H : Attains f n) :
    ∃ i, i < fs.length ∧ ∃ vs, hasTys fs vs = true ∧ ∃ bits, packNth fs vs i false = .ok bits ∧ bits.length = n := by
  have fresh : ∀ gs : List Ty, hasTys gs (newVals gs) = true := by
    intro gs
    induction gs with
    | nil => rfl
    | cons g gs ih => simp only [newVals, hasTys, Bool.and_eq_true]; exact ⟨hasTy_newVal g, ih⟩
  induction fs with
  | nil => cases hf
  | cons g fs ih =>
    rcases List.mem_cons.1 hf with rfl | hf
    · obtain ⟨v, v1, b, v2, v3⟩ := H
      exact ⟨0, by simp, v :: newVals fs, by simp only [hasTys, Bool.and_eq_true]; exact ⟨v1, fresh fs⟩, b, by simp [packNth, v2], v3⟩
    · obtain ⟨i, hi, vs, w1, b, w2, w3⟩ := ih hf
      exact ⟨i + 1, by simpa using hi, newVal g :: vs, by simp only [hasTys, Bool.and_eq_true]; exact ⟨hasTy_newVal g, w1⟩, b,
        by simp [packNth, w2], w3⟩

theorem attains_union (fs : List Ty) (h2 : 2 ≤ fs.length) (f : Ty) (n : Nat) (hf : f ∈ fs) (H : Attains f n) :
    Attains (.comp true fs) (n + bitLength (max (fs.length - 1) 1)) := by
  obtain ⟨i, hi, vs, w1, b, w2, w3⟩ := nth_length fs f n hf H
  refine ⟨.comp (some i) vs, by simp [hasTy, w1, hi], formatBin (unionTagBits fs.length) i ++ b, ?_, ?_⟩
  · simp [pack, w2, bind, Except.bind, pure, Except.pure]
  · have hlt : i < 2 ^ unionTagBits fs.length := Nat.lt_of_lt_of_le hi (ceilLog2_spec fs.length)
    rw [formatBin_eq _ _ (unionTagBits_pos fs.length h2) hlt, ← unionTagBits_eq_bitLength _ h2]
    simp only [List.length_append, length_bitsBE, w3]
    omega

theorem attains_static (e : Ty) (m n : Nat) (H : Attains e n) : Attains (.arr e false m) (m * n) := by
  obtain ⟨v, v1, b, v2, rfl⟩ := H
  obtain ⟨bits, h1, h2⟩ := seq_length e v b v2 m
  refine ⟨.arr (List.replicate m v), by simp [hasTy, v1], bits, ?_, h2⟩
  simp only [pack, if_true]
  simpa using h1

theorem attains_dynamic (e : Ty) (m n : Nat) (hm : 0 < m) (H : Attains e n) : Attains (.arr e true m) (m * n + bitLength m) := by
  obtain ⟨v, v1, b, v2, rfl⟩ := H
  obtain ⟨bits, h1, h2⟩ := seq_length e v b v2 m
  obtain ⟨cb, c1, c2, -⟩ := count_rt (arrayLenBits m) m (arrayLenBits_pos m hm) (lt_two_pow_arrayLenBits m)
  refine ⟨.arr (List.replicate m v), by simp [hasTy, v1], cb ++ bits, ?_, ?_⟩
  · simp only [pack]
    rw [if_neg (by simp), if_neg (by simp)]
    have e : (List.replicate m v).take m = List.replicate m v := by simp
    rw [e, List.length_replicate, c1, h1]
    rfl
  · rw [List.length_append, c2, h2, arrayLenBits_eq_bitLength]
    omega

theorem attains_prim (p : PrimTy) (h : 0 < p.bitlen) : Attains (.prim p) p.bitlen := by
  refine ⟨.prim (List.replicate p.bitlen false), by simp [hasTy], revSlicesFromEnd (List.replicate p.bitlen false), ?_, by simp⟩
  simp only [pack]
  rw [if_pos (by intro h; have := congrArg List.length h; simp at this; omega), leFromBeBits_eq _ _ (by simp)]
  simp

theorem listMin_mem : ∀ l : List Nat, l ≠ [] → listMin l ∈ l
  | [], h => absurd rfl h
  | [x], _ => by simp [listMin]
  | x :: y :: l, _ => by
    have := listMin_mem (y :: l) (by simp)
    simp only [listMin]
    by_cases hx : x ≤ listMin (y :: l)
    · rw [Nat.min_eq_left hx]; simp
    · rw [Nat.min_eq_right (by omega)]; exact List.mem_cons_of_mem _ this

theorem foldl_max_mem (l : List Nat) : ∀ a, l.foldl max a = a ∨ l.foldl max a ∈ l := by
  induction l with
  | nil => exact fun a => .inl rfl
  | cons x l ih =>
    intro a
    rw [List.foldl_cons]
    rcases ih (max a x) with h | h
    · rw [h]
      by_cases hx : a ≤ x
      · rw [Nat.max_eq_right hx]; exact .inr (by simp)
      · rw [Nat.max_eq_left (by omega)]; exact .inl rfl
    · exact .inr (List.mem_cons_of_mem _ h)

/-- C07: the maximum bit length is the length of the encoding of some value. -/
theorem C07_max_attained (t : Ty) : WfTy t = true → ∃ v, hasTy t v = true ∧ ∃ bits, pack t v false = .ok bits ∧ bits.length = maxBitlen t := by
  induction t using Ty.induct with
  | void n => exact fun _ => ⟨.void, rfl, _, rfl, by simp [maxBitlen]⟩
  | prim p =>
    intro hw
    simp only [WfTy, decide_eq_true_eq] at hw
    have := attains_prim p hw
    rw [maxBitlen]
    exact this
  | arr e d m ih =>
    intro hw
    simp only [WfTy, Bool.and_eq_true, decide_eq_true_eq] at hw
    cases d with
    | false => rw [maxBitlen]; exact attains_static e m _ (ih hw.1)
    | true => rw [maxBitlen]; exact attains_dynamic e m _ hw.2 (ih hw.1)
  | comp u fs ih =>
    intro hw
    simp only [WfTy, WfTys_eq, Bool.and_eq_true, List.all_eq_true] at hw
    have H : ∀ f ∈ fs, Attains f (maxBitlen f) := fun f hf => ih f hf (hw.1 f hf)
    cases u with
    | false =>
      obtain ⟨vs, w1, b, w2, w3⟩ := fields_length maxBitlen fs H
      refine ⟨.comp none vs, by simp [hasTy, w1], b, by simp [pack, w2], ?_⟩
      rw [w3]
      simp only [maxBitlen, maxBitlens_eq]
      split
      · rename_i h0
        have : fs = [] := List.eq_nil_of_length_eq_zero h0
        subst this; rfl
      · rfl
    | true =>
      have h2 : 2 ≤ fs.length := by simpa using hw.2
      simp only [maxBitlen, maxBitlens_eq]
      rw [if_neg (by omega), if_pos trivial]
      have : ∃ f ∈ fs, maxBitlen f = (fs.map maxBitlen).foldl max 0 := by
        rcases foldl_max_mem (fs.map maxBitlen) 0 with h | h
        · have hlen : 0 < fs.length := by omega
          refine ⟨fs[0], List.getElem_mem hlen, ?_⟩
          have := (le_foldl_max (fs.map maxBitlen) 0).2 (maxBitlen fs[0]) (List.mem_map_of_mem (List.getElem_mem hlen))
          omega
        · obtain ⟨f, hf, e⟩ := List.mem_map.1 h
          exact ⟨f, hf, e⟩
      obtain ⟨f, hf, e⟩ := this
      rw [← e]
      exact attains_union fs h2 f _ hf (H f hf)

/-- C07: the minimum bit length of a type without dynamic arrays is the length of the encoding of some value. -/
theorem C07_min_attained (t : Ty) : WfTy t = true → Static t = true →
    ∃ v, hasTy t v = true ∧ ∃ bits, pack t v false = .ok bits ∧ bits.length = minBitlen t := by
  induction t using Ty.induct with
  | void n => exact fun _ _ => ⟨.void, rfl, _, rfl, by simp [minBitlen]⟩
  | prim p =>
    intro hw _
    simp only [WfTy, decide_eq_true_eq] at hw
    have := attains_prim p hw
    rw [minBitlen]
    exact this
  | arr e d m ih =>
    intro hw hs
    simp only [WfTy, Bool.and_eq_true, decide_eq_true_eq] at hw
    simp only [Static, Bool.and_eq_true] at hs
    cases d with
    | false => rw [minBitlen, if_neg (by simp), Nat.mul_comm]; exact attains_static e m _ (ih hw.1 hs.2)
    | true => exact absurd hs.1 (by simp)
  | comp u fs ih =>
    intro hw hs
    simp only [WfTy, WfTys_eq, Bool.and_eq_true, List.all_eq_true] at hw
    simp only [Static] at hs
    have H : ∀ f ∈ fs, Attains f (minBitlen f) := fun f hf => ih f hf (hw.1 f hf) (Statics_all fs hs f hf)
    cases u with
    | false =>
      obtain ⟨vs, w1, b, w2, w3⟩ := fields_length minBitlen fs H
      refine ⟨.comp none vs, by simp [hasTy, w1], b, by simp [pack, w2], ?_⟩
      rw [w3]
      simp only [minBitlen, minBitlens_eq]
      split
      · rename_i h0
        have : fs = [] := List.eq_nil_of_length_eq_zero h0
        subst this; rfl
      · rfl
    | true =>
      have h2 : 2 ≤ fs.length := by simpa using hw.2
      simp only [minBitlen, minBitlens_eq]
      rw [if_neg (by omega), if_pos trivial]
      obtain ⟨f, hf, e⟩ := List.mem_map.1 (listMin_mem (fs.map minBitlen) (by intro h; have := congrArg List.length h; simp at this; subst this; simp at h2))
      rw [← e]
      exact attains_union fs h2 f _ hf (H f hf)

example : WfTy exampleTy = true ∧ Static (.comp true [.comp false [.prim ⟨.unsigned, 9, true⟩], .arr (.prim ⟨.boolean, 1, true⟩) false 7]) = true ∧
    minBitlen (.comp true [.comp false [.prim ⟨.unsigned, 9, true⟩], .arr (.prim ⟨.boolean, 1, true⟩) false 7]) = 8 := by decide +kernel

end CodecBounds
end Dronecan
