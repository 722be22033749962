import Verif.Spec.Codec
import Verif.Proofs.Bits

/-! Helper lemmas about serialization. -/

namespace Dronecan

/-! ## Induction over types -/

mutual
theorem Ty.inductAux {P : Ty → Prop} (void : ∀ n, P (.void n)) (prim : ∀ p, P (.prim p))
    (arr : ∀ e d m, P e → P (.arr e d m)) (comp : ∀ u fs, (∀ f ∈ fs, P f) → P (.comp u fs)) : ∀ t, P t
  | .void n => void n
  | .prim p => prim p
  | .arr e d m => arr e d m (Ty.inductAux void prim arr comp e)
  | .comp u fs => comp u fs (Ty.inductAuxs void prim arr comp fs)
theorem Ty.inductAuxs {P : Ty → Prop} (void : ∀ n, P (.void n)) (prim : ∀ p, P (.prim p))
    (arr : ∀ e d m, P e → P (.arr e d m)) (comp : ∀ u fs, (∀ f ∈ fs, P f) → P (.comp u fs)) :
    ∀ fs : List Ty, ∀ f ∈ fs, P f
  | [], _, h => absurd h (List.not_mem_nil)
  | f :: fs, g, h => by
    have hf := Ty.inductAux void prim arr comp f
    have hfs := Ty.inductAuxs void prim arr comp fs
    rcases List.mem_cons.1 h with e | h
    · rw [e]; exact hf
    · exact hfs g h
end

/-- Induction over types with a membership hypothesis for the fields of a structure. -/
@[elab_as_elim]
theorem Ty.induct {P : Ty → Prop} (t : Ty) (void : ∀ n, P (.void n)) (prim : ∀ p, P (.prim p))
    (arr : ∀ e d m, P e → P (.arr e d m)) (comp : ∀ u fs, (∀ f ∈ fs, P f) → P (.comp u fs)) : P t :=
  Ty.inductAux void prim arr comp t

/-! ## The mutual list functions -/

theorem maxBitlens_eq (fs : List Ty) : maxBitlens fs = fs.map maxBitlen := by
  induction fs with
  | nil => simp [maxBitlens]
  | cons f fs ih => simp [maxBitlens, ih]

theorem minBitlens_eq (fs : List Ty) : minBitlens fs = fs.map minBitlen := by
  induction fs with
  | nil => simp [minBitlens]
  | cons f fs ih => simp [minBitlens, ih]

theorem newVals_eq (fs : List Ty) : newVals fs = fs.map newVal := by
  induction fs with
  | nil => simp [newVals]
  | cons f fs ih => simp [newVals, ih]

theorem WfTys_eq (fs : List Ty) : WfTys fs = fs.all WfTy := by
  induction fs with
  | nil => simp [WfTys]
  | cons f fs ih => simp [WfTys, ih]

theorem listMin_le (l : List Nat) (x : Nat) (h : x ∈ l) : listMin l ≤ x := by
  induction l with
  | nil => simp at h
  | cons a l ih =>
    cases l with
    | nil => simp at h; simp [listMin, h]
    | cons b l =>
      rw [listMin]
      · rcases List.mem_cons.1 h with rfl | h
        · omega
        · have := ih h; omega
      · simp

theorem le_foldl_max (l : List Nat) (a : Nat) : a ≤ l.foldl max a ∧ ∀ x ∈ l, x ≤ l.foldl max a := by
  induction l generalizing a with
  | nil => simp
  | cons b l ih =>
    have := ih (max a b)
    refine ⟨by simp; omega, ?_⟩
    intro x hx
    rcases List.mem_cons.1 hx with rfl | hx
    · simp; omega
    · exact this.2 x hx

theorem hasTys_length {fs : List Ty} {vs : List Val} (h : hasTys fs vs = true) : vs.length = fs.length := by
  induction fs generalizing vs with
  | nil => cases vs <;> simp_all [hasTys]
  | cons f fs ih =>
    cases vs with
    | nil => simp [hasTys] at h
    | cons v vs => simp [hasTys] at h; simp [ih h.2]

/-! ## Defaults have their type -/

theorem hasTy_newVal (t : Ty) : hasTy t (newVal t) = true := by
  induction t using Ty.induct with
  | void n => simp [newVal, hasTy]
  | prim p => simp [newVal, hasTy]
  | arr e d m ih => cases d <;> simp [newVal, hasTy, ih]
  | comp u fs ih =>
    simp only [newVal, hasTy, Bool.and_true]
    induction fs with
    | nil => simp [newVals, hasTys]
    | cons f fs ih2 =>
      simp only [newVals, hasTys, Bool.and_eq_true]
      exact ⟨ih f (by simp), ih2 (fun g hg => ih g (by simp [hg]))⟩

/-! ## Round trip -/

/-- What the round-trip induction establishes for one type, value and mode. -/
def RT (t : Ty) (v : Val) (tao : Bool) : Prop :=
  ∃ bits, pack t v tao = .ok bits ∧ minBitlen t ≤ bits.length ∧ bits.length ≤ maxBitlen t ∧
    ∀ pad : Bits, (tao = true → pad.length < 8) →
      ∃ rest, unpack t (bits ++ pad) tao = .ok (canon t v, rest) ∧ (tao = false → rest = pad) ∧
        (rest = pad ∨ rest = [])

theorem RT_false {t : Ty} {v : Val} (h : RT t v false) :
    ∃ bits, pack t v false = .ok bits ∧ minBitlen t ≤ bits.length ∧ bits.length ≤ maxBitlen t ∧
    ∀ pad : Bits, unpack t (bits ++ pad) false = .ok (canon t v, pad) := by
  obtain ⟨bits, h1, h2, h3, h4⟩ := h
  refine ⟨bits, h1, h2, h3, fun pad => ?_⟩
  obtain ⟨rest, h5, h6, _⟩ := h4 pad (by simp)
  rw [h5, h6 rfl]

/-- Sequences of items (static and counted arrays). -/
theorem packSeq_rt (e : Ty) (tao : Bool) (items : List Val) (H : ∀ v ∈ items, ∀ b, RT e v b) :
    ∃ bits, packSeq (fun v t => pack e v t) tao items = .ok bits ∧
      minBitlen e * items.length ≤ bits.length ∧ bits.length ≤ items.length * maxBitlen e ∧
      ∀ pad : Bits, (tao = true → pad.length < 8) →
        ∃ rest, unpackSeq (fun s t => unpack e s t) tao items.length (bits ++ pad)
            = .ok (items.map (canon e), rest) ∧ (tao = false → rest = pad) ∧ (rest = pad ∨ rest = []) := by
  induction items with
  | nil => exact ⟨[], rfl, by simp, by simp, fun pad _ => ⟨pad, rfl, fun _ => rfl, Or.inl rfl⟩⟩
  | cons v vs ih =>
    cases vs with
    | nil =>
      obtain ⟨bits, h1, h2, h3, h4⟩ := H v (by simp) tao
      refine ⟨bits, h1, by simpa using h2, by simpa using h3, fun pad hp => ?_⟩
      obtain ⟨rest, h5, h6, h7⟩ := h4 pad hp
      refine ⟨rest, ?_, h6, h7⟩
      simp [unpackSeq, h5, bind, Except.bind, pure, Except.pure]
    | cons w vs =>
      obtain ⟨b1, h1, h2, h3, h4⟩ := RT_false (H v (by simp) false)
      obtain ⟨b2, g1, g2, g3, g4⟩ := ih (fun x hx => H x (by simp [hx]))
      refine ⟨b1 ++ b2, ?_, ?_, ?_, fun pad hp => ?_⟩
      · simp [packSeq, h1, g1, bind, Except.bind, pure, Except.pure]
      · simp only [List.length_cons, List.length_append] at g2 ⊢
        rw [Nat.mul_succ]; omega
      · simp only [List.length_cons, List.length_append] at g3 ⊢
        rw [Nat.succ_mul]; omega
      · obtain ⟨rest, k1, k2, k3⟩ := g4 pad hp
        refine ⟨rest, ?_, k2, k3⟩
        simp only [List.length_cons] at k1
        simp only [List.length_cons, List.append_assoc, unpackSeq, h4, bind, Except.bind, k1, pure, Except.pure,
          List.map_cons]

/-- The tail-array loop. -/
theorem packTail_rt (e : Ty) (tao : Bool) (items : List Val) (H : ∀ v ∈ items, RT e v false)
    (h8 : 8 ≤ minBitlen e) :
    ∃ bits, packSeq (fun v _ => pack e v false) tao items = .ok bits ∧
      bits.length ≤ items.length * maxBitlen e ∧
      ∀ (pad : Bits) (fuel : Nat), pad.length < 8 → bits.length ≤ fuel →
        unpackTail (fun s t => unpack e s t) fuel (bits ++ pad) = .ok (items.map (canon e)) := by
  induction items with
  | nil =>
    refine ⟨[], rfl, by simp, fun pad fuel hp _ => ?_⟩
    unfold unpackTail
    simp [show ¬ pad.length ≥ 8 by omega]
  | cons v vs ih =>
    obtain ⟨b1, h1, h2, h3, h4⟩ := RT_false (H v (by simp))
    obtain ⟨b2, g1, g3, g4⟩ := ih (fun x hx => H x (by simp [hx]))
    refine ⟨b1 ++ b2, ?_, ?_, fun pad fuel hp hf => ?_⟩
    · cases vs with
      | nil =>
        simp [packSeq] at g1
        simp [packSeq, h1, ← g1]
      | cons w vs => simp [packSeq, h1, g1, bind, Except.bind, pure, Except.pure]
    · simp only [List.length_cons, List.length_append] at g3 ⊢
      rw [Nat.succ_mul]; omega
    · rw [List.length_append] at hf
      obtain ⟨fuel', rfl⟩ : ∃ k, fuel = k + 1 := ⟨fuel - 1, by omega⟩
      unfold unpackTail
      rw [if_pos (by simp; omega)]
      simp only [List.append_assoc, h4, bind, Except.bind, pure, Except.pure]
      rw [g4 pad fuel' hp (by omega)]
      rfl

theorem packFields_rt (fs : List Ty) (vs : List Val) (tao : Bool) (ht : hasTys fs vs = true)
    (H : ∀ f ∈ fs, ∀ v, hasTy f v = true → ∀ b, RT f v b) :
    ∃ bits, packFields fs vs tao = .ok bits ∧
      (fs.map minBitlen).sum ≤ bits.length ∧ bits.length ≤ (fs.map maxBitlen).sum ∧
      ∀ pad : Bits, (tao = true → pad.length < 8) →
        ∃ rest, unpackFields fs (bits ++ pad) tao = .ok (canonFields fs vs, rest) ∧
          (tao = false → rest = pad) ∧ (rest = pad ∨ rest = []) := by
  induction fs generalizing vs with
  | nil =>
    cases vs with
    | cons v vs => simp [hasTys] at ht
    | nil =>
      exact ⟨[], by simp [packFields], by simp, by simp,
        fun pad _ => ⟨pad, by simp [unpackFields, canonFields], fun _ => rfl, Or.inl rfl⟩⟩
  | cons f fs ih =>
    cases vs with
    | nil => simp [hasTys] at ht
    | cons v vs =>
      simp only [hasTys, Bool.and_eq_true] at ht
      cases fs with
      | nil =>
        cases vs with
        | cons w vs => simp [hasTys] at ht
        | nil =>
          obtain ⟨bits, h1, h2, h3, h4⟩ := H f (by simp) v ht.1 tao
          refine ⟨bits, by simp [packFields, h1], by simpa using h2, by simpa using h3, fun pad hp => ?_⟩
          obtain ⟨rest, h5, h6, h7⟩ := h4 pad hp
          refine ⟨rest, ?_, h6, h7⟩
          simp [unpackFields, canonFields, h5, bind, Except.bind, pure, Except.pure]
      | cons g fs =>
        obtain ⟨b1, h1, h2, h3, h4⟩ := RT_false (H f (by simp) v ht.1 false)
        obtain ⟨b2, g1, g2, g3, g4⟩ := ih vs ht.2 (fun x hx => H x (by simp [hx]))
        refine ⟨b1 ++ b2, ?_, ?_, ?_, fun pad hp => ?_⟩
        · rw [packFields]
          · simp [h1, g1, bind, Except.bind, pure, Except.pure]
          · intro h; simp at h
        · simp only [List.map_cons, List.sum_cons, List.length_append] at g2 ⊢; omega
        · simp only [List.map_cons, List.sum_cons, List.length_append] at g3 ⊢; omega
        · obtain ⟨rest, k1, k2, k3⟩ := g4 pad hp
          refine ⟨rest, ?_, k2, k3⟩
          rw [unpackFields, List.append_assoc, h4]
          · simp only [bind, Except.bind, k1, pure, Except.pure]
            simp [canonFields]
          · simp

theorem packNth_rt (fs : List Ty) (vs : List Val) (i : Nat) (tao : Bool) (ht : hasTys fs vs = true)
    (hi : i < fs.length) (H : ∀ f ∈ fs, ∀ v, hasTy f v = true → ∀ b, RT f v b) :
    ∃ bits f, f ∈ fs ∧ packNth fs vs i tao = .ok bits ∧
      minBitlen f ≤ bits.length ∧ bits.length ≤ maxBitlen f ∧
      ∀ pad : Bits, (tao = true → pad.length < 8) →
        ∃ rest, unpackNth fs i (bits ++ pad) tao = .ok (canonNth fs vs i, rest) ∧
          (tao = false → rest = pad) ∧ (rest = pad ∨ rest = []) := by
  induction fs generalizing vs i with
  | nil => simp at hi
  | cons f fs ih =>
    cases vs with
    | nil => simp [hasTys] at ht
    | cons v vs =>
      simp only [hasTys, Bool.and_eq_true] at ht
      cases i with
      | zero =>
        obtain ⟨bits, h1, h2, h3, h4⟩ := H f (by simp) v ht.1 tao
        refine ⟨bits, f, by simp, by simp [packNth, h1], h2, h3, fun pad hp => ?_⟩
        obtain ⟨rest, h5, h6, h7⟩ := h4 pad hp
        refine ⟨rest, ?_, h6, h7⟩
        simp [unpackNth, canonNth, h5, bind, Except.bind, pure, Except.pure]
      | succ i =>
        obtain ⟨bits, f', hf', g1, g2, g3, g4⟩ :=
          ih vs i ht.2 (by simpa using hi) (fun x hx => H x (by simp [hx]))
        refine ⟨bits, f', by simp [hf'], by simp [packNth, g1], g2, g3, fun pad hp => ?_⟩
        obtain ⟨rest, h5, h6, h7⟩ := g4 pad hp
        refine ⟨rest, ?_, h6, h7⟩
        simp [unpackNth, canonNth, h5, bind, Except.bind, pure, Except.pure]

theorem natOfBits_inj' {s t : Bits} (hl : s.length = t.length) (h : natOfBits s = natOfBits t) : s = t :=
  natOfBits_inj hl h

/-- Reading a count or tag written in `w` bits. -/
theorem count_rt (w c : Nat) (hw : 0 < w) (hc : c < 2 ^ w) :
    ∃ b, leFromBeBits (formatBin w c) w = .ok b ∧ b.length = w ∧
      ∀ s : Bits, ∃ d, beFromLeBits ((b ++ s).take w) w = .ok d ∧ d ≠ [] ∧ natOfBits d = c := by
  rw [formatBin_eq w c hw hc, leFromBeBits_eq _ _ (by simp)]
  refine ⟨_, rfl, by simp, fun s => ?_⟩
  rw [List.take_append_of_le_length (by simp), beFromLeBits_eq _ _ (by simp)]
  have : ∀ l : Bits, l.length = w → (l.take w).take w = l := by
    intro l hl; rw [List.take_of_length_le (by simp; omega), List.take_of_length_le (by omega)]
  rw [this _ (by simp), revSlices_revSlicesFromEnd]
  refine ⟨_, rfl, ?_, ?_⟩
  · intro h
    have := congrArg List.length h
    simp at this; omega
  · simp [natOfBits_bitsBE, Nat.mod_eq_of_lt hc]

theorem rt (t : Ty) : ∀ v, WfTy t = true → hasTy t v = true → ∀ tao, RT t v tao := by
  induction t using Ty.induct with
  | void n =>
    intro v hw hv tao
    cases v <;> simp [hasTy] at hv
    refine ⟨List.replicate n false, by simp [pack], by simp [minBitlen], by simp [maxBitlen], fun pad _ => ?_⟩
    exact ⟨pad, by simp [unpack, canon], fun _ => rfl, Or.inl rfl⟩
  | prim p =>
    intro v hw hv tao
    cases v <;> simp [hasTy] at hv
    rename_i bits
    simp only [WfTy, decide_eq_true_eq] at hw
    have hne : bits ≠ [] := by intro h; subst h; simp at hv; omega
    refine ⟨revSlicesFromEnd bits, ?_, ?_, ?_, fun pad _ => ?_⟩
    · simp only [pack, hne, ne_eq, not_false_eq_true, if_true]
      rw [leFromBeBits_eq _ _ (by omega)]; simp [hv]
    · simp [minBitlen, hv]
    · simp [maxBitlen, hv]
    · refine ⟨pad, ?_, fun _ => rfl, Or.inl rfl⟩
      have hlen : (revSlicesFromEnd bits).length = p.bitlen := by simp [hv]
      simp only [unpack, ne_eq, show ¬ p.bitlen = 0 by omega, not_false_eq_true, if_true, canon]
      rw [beFromLeBits_eq _ _ (by simp [hv])]
      simp only [bind, Except.bind, pure, Except.pure]
      rw [List.take_append_of_le_length (by omega), List.take_of_length_le (by omega),
        revSlices_revSlicesFromEnd, List.drop_append_of_le_length (by omega),
        List.drop_eq_nil_of_le (by omega), List.nil_append]
  | arr e d m ih =>
    intro v hw hv tao
    cases v <;> simp [hasTy] at hv
    rename_i items
    simp only [WfTy, Bool.and_eq_true, decide_eq_true_eq] at hw
    have H : ∀ v, hasTy e v = true → ∀ b, RT e v b := fun v hv b => ih v hw.1 hv b
    have Htake : ∀ v ∈ items.take m, hasTy e v = true := fun v hm => hv v (List.mem_of_mem_take hm)
    cases d with
    | false =>
      have hmem : ∀ v ∈ items.take m ++ List.replicate (m - items.length) (newVal e), ∀ b, RT e v b := by
        intro v hm
        rcases List.mem_append.1 hm with hm | hm
        · exact H v (Htake v hm)
        · rw [(List.mem_replicate.1 hm).2]; exact H _ (hasTy_newVal e)
      obtain ⟨bits, h1, h2, h3, h4⟩ := packSeq_rt e tao _ hmem
      have hlen : (items.take m ++ List.replicate (m - items.length) (newVal e)).length = m := by
        simp; omega
      have hrep : m - (items.take m).length = m - items.length := by simp; omega
      rw [hlen] at h2 h3 h4
      refine ⟨bits, ?_, ?_, ?_, fun pad hp => ?_⟩
      · simp only [pack, if_true]
        rw [hrep]; exact h1
      · simpa [minBitlen] using h2
      · simpa [maxBitlen] using h3
      · obtain ⟨rest, k1, k2, k3⟩ := h4 pad hp
        refine ⟨rest, ?_, k2, k3⟩
        simp only [unpack, if_true, k1, bind, Except.bind, pure, Except.pure, canon]
        simp
    | true =>
      by_cases htao : tao = true ∧ minBitlen e ≥ 8
      · obtain ⟨bits, h1, h3, h4⟩ := packTail_rt e tao (items.take m) (fun v hm => H v (Htake v hm) false) htao.2
        refine ⟨bits, ?_, by simp [minBitlen], ?_, fun pad hp => ?_⟩
        · simp only [pack, htao]
          simpa [htao.1] using h1
        · simp only [maxBitlen, if_true]
          have : (items.take m).length * maxBitlen e ≤ m * maxBitlen e :=
            Nat.mul_le_mul_right _ (by simp; omega)
          omega
        · refine ⟨[], ?_, fun h => absurd htao.1 (by simp [h]), Or.inr rfl⟩
          have := h4 pad (bits ++ pad).length (hp htao.1) (by simp)
          simp only [unpack]
          rw [if_neg (by simp), if_pos htao, this]
          simp [bind, Except.bind, pure, Except.pure, canon]
      · obtain ⟨bits, h1, h2, h3, h4⟩ := packSeq_rt e tao (items.take m) (fun v hm => H v (Htake v hm))
        have hcl : (items.take m).length < 2 ^ arrayLenBits m :=
          Nat.lt_of_le_of_lt (by simp; omega) (lt_two_pow_arrayLenBits m)
        obtain ⟨cb, c1, c2, c3⟩ := count_rt (arrayLenBits m) _ (arrayLenBits_pos m hw.2) hcl
        refine ⟨cb ++ bits, ?_, by simp [minBitlen], ?_, fun pad hp => ?_⟩
        · simp only [pack]
          rw [if_neg (by simp), if_neg htao]
          simp only [c1, h1, bind, Except.bind, pure, Except.pure]
        · simp only [maxBitlen, if_true, List.length_append, c2, ← arrayLenBits_eq_bitLength]
          have : (items.take m).length * maxBitlen e ≤ m * maxBitlen e :=
            Nat.mul_le_mul_right _ (by simp; omega)
          omega
        · obtain ⟨rest, k1, k2, k3⟩ := h4 pad hp
          refine ⟨rest, ?_, k2, k3⟩
          obtain ⟨dd, d1, d2, d3⟩ := c3 (bits ++ pad)
          have hdrop : (cb ++ (bits ++ pad)).drop (arrayLenBits m) = bits ++ pad := by
            rw [← c2]; simp
          simp only [unpack]
          rw [if_neg (by simp), if_neg htao, List.append_assoc]
          simp only [d1, bind, Except.bind, d2, if_false, d3, hdrop, k1, pure, Except.pure, canon]
          simp
  | comp u fs ih =>
    intro v hw hv tao
    cases v <;> simp [hasTy] at hv
    rename_i active vs
    obtain ⟨hvs, hact⟩ := hv
    simp only [WfTy, WfTys_eq, Bool.and_eq_true, List.all_eq_true] at hw
    have H : ∀ f ∈ fs, ∀ v, hasTy f v = true → ∀ b, RT f v b := fun f hf v hv b => ih f hf v (hw.1 f hf) hv b
    cases u with
    | false =>
      obtain ⟨bits, h1, h2, h3, h4⟩ := packFields_rt fs vs tao hvs H
      refine ⟨bits, by simp [pack, h1], ?_, ?_, fun pad hp => ?_⟩
      · simp only [minBitlen, minBitlens_eq]
        split
        · omega
        · simpa using h2
      · simp only [maxBitlen, maxBitlens_eq]
        split
        · rename_i h0
          have : fs = [] := List.eq_nil_of_length_eq_zero h0
          subst this; simpa using h3
        · simpa using h3
      · obtain ⟨rest, k1, k2, k3⟩ := h4 pad hp
        refine ⟨rest, ?_, k2, k3⟩
        simp [unpack, k1, bind, Except.bind, pure, Except.pure, canon]
    | true =>
      have h2l : 2 ≤ fs.length := by simpa using hw.2
      have hi : active.getD 0 < fs.length := by
        cases active with
        | none => simp; omega
        | some i => simpa using hact
      obtain ⟨bits, f, hf, h1, h2, h3, h4⟩ := packNth_rt fs vs (active.getD 0) tao hvs hi H
      have hlt : active.getD 0 < 2 ^ unionTagBits fs.length :=
        Nat.lt_of_lt_of_le hi (ceilLog2_spec fs.length)
      have hpos := unionTagBits_pos fs.length h2l
      have hfmt := formatBin_eq (unionTagBits fs.length) _ hpos hlt
      refine ⟨formatBin (unionTagBits fs.length) (active.getD 0) ++ bits, ?_, ?_, ?_, fun pad hp => ?_⟩
      · simp [pack, h1, bind, Except.bind, pure, Except.pure]
      · simp only [minBitlen, minBitlens_eq]
        have := listMin_le (fs.map minBitlen) (minBitlen f) (List.mem_map_of_mem hf)
        rw [← unionTagBits_eq_bitLength _ h2l, hfmt]
        simp only [List.length_append, length_bitsBE]
        rw [if_neg (by omega), if_pos trivial]
        omega
      · simp only [maxBitlen, maxBitlens_eq]
        have := (le_foldl_max (fs.map maxBitlen) 0).2 (maxBitlen f) (List.mem_map_of_mem hf)
        rw [← unionTagBits_eq_bitLength _ h2l, hfmt]
        simp only [List.length_append, length_bitsBE]
        rw [if_neg (by omega), if_pos trivial]
        omega
      · obtain ⟨rest, k1, k2, k3⟩ := h4 pad hp
        refine ⟨rest, ?_, k2, k3⟩
        have ht : (formatBin (unionTagBits fs.length) (active.getD 0) ++ bits ++ pad).take (unionTagBits fs.length)
            = bitsBE (unionTagBits fs.length) (active.getD 0) := by
          rw [hfmt, List.append_assoc, List.take_append_of_le_length (by simp), List.take_of_length_le (by simp)]
        have hd : (formatBin (unionTagBits fs.length) (active.getD 0) ++ bits ++ pad).drop (unionTagBits fs.length)
            = bits ++ pad := by
          rw [hfmt, List.append_assoc, List.drop_append_of_le_length (by simp), List.drop_eq_nil_of_le (by simp),
            List.nil_append]
        have hne : bitsBE (unionTagBits fs.length) (active.getD 0) ≠ [] := by
          intro h; have := congrArg List.length h; simp at this; omega
        simp only [unpack, ht, hd, hne, if_false, natOfBits_bitsBE, Nat.mod_eq_of_lt hlt, bind, Except.bind, pure,
          Except.pure, show ¬ active.getD 0 ≥ fs.length by omega, k1, canon]

end Dronecan
