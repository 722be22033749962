import Verif.Proofs.Decode2

/-!
# C06, C07, C08, C09: serialization of arbitrary data types

Vocabulary (`WfTy`, `hasTy`, `canon`, `capOk`, `pow2Caps`) is in `Verif/Spec/Codec.lean`.
-/

namespace Dronecan

/-- C06 without tail-array optimisation (CAN FD): encoding never fails and decoding the encoded bits followed by
*any* bits returns the content of the value and exactly those following bits. -/
theorem C06_roundtrip (t : Ty) (v : Val) (ht : WfTy t = true) (hv : hasTy t v = true) :
    ∃ bits, pack t v false = .ok bits ∧ ∀ rest, unpack t (bits ++ rest) false = .ok (canon t v, rest) := by
  obtain ⟨bits, h1, _, _, h4⟩ := RT_false (rt t v ht hv false)
  exact ⟨bits, h1, h4⟩

/-- C06 with tail-array optimisation (classic CAN): same, for any padding shorter than one byte. -/
theorem C06_roundtrip_tao (t : Ty) (v : Val) (ht : WfTy t = true) (hv : hasTy t v = true) :
    ∃ bits, pack t v true = .ok bits ∧ ∀ pad : Bits, pad.length < 8 →
      ∃ rest, unpack t (bits ++ pad) true = .ok (canon t v, rest) := by
  obtain ⟨bits, h1, _, _, h4⟩ := rt t v ht hv true
  refine ⟨bits, h1, fun pad hp => ?_⟩
  obtain ⟨rest, h5, _⟩ := h4 pad (fun _ => hp)
  exact ⟨rest, h5⟩

/-- C06 through bytes, both modes: serializing to the bytes of a transfer payload (zero-padded to a byte boundary,
transport.py:704-707) and decoding the bits of those bytes gives the content of the value. -/
theorem C06_roundtrip_bytes (t : Ty) (v : Val) (tao : Bool) (ht : WfTy t = true) (hv : hasTy t v = true) :
    ∃ bits rest, pack t v tao = .ok bits ∧
      unpack t (bitsFromBytes (bytesFromBits bits)) tao = .ok (canon t v, rest) := by
  obtain ⟨bits, h1, _, _, h4⟩ := rt t v ht hv tao
  obtain ⟨rest, h5, _⟩ := h4 (List.replicate (padLen bits.length) false)
    (fun _ => by simp [padLen]; omega)
  exact ⟨bits, rest, h1, by rw [bitsFromBytes_bytesFromBits]; exact h5⟩

/-- `canon` does not lose information the sender could have meant: it leaves alone every value that is already in
canonical form, and such values are returned unchanged by the round trip. -/
theorem C06_roundtrip_exact (t : Ty) (v : Val) (tao : Bool) (ht : WfTy t = true) (hv : hasTy t v = true)
    (hc : canon t v = v) :
    ∃ bits rest, pack t v tao = .ok bits ∧
      unpack t (bitsFromBytes (bytesFromBits bits)) tao = .ok (v, rest) := by
  obtain ⟨bits, rest, h1, h2⟩ := C06_roundtrip_bytes t v tao ht hv
  exact ⟨bits, rest, h1, by rw [h2, hc]⟩

/-- C06: the content of a value is itself a value of the type in canonical form. -/
theorem C06_content_is_canonical (t : Ty) (v : Val) (ht : WfTy t = true) (hv : hasTy t v = true) :
    hasTy t (canon t v) = true ∧ canon t (canon t v) = canon t v :=
  ⟨hasTy_canon t ht v hv, canon_idem t v⟩

/-- A structure with a 3-bit field, a void, a union of an int16 array and a bool, and a tail array of 12-bit
numbers: the hypotheses of the C06 theorems are satisfiable by a non-trivial type and value. -/
def exampleTy : Ty :=
  .comp false [.prim ⟨.unsigned, 3, false⟩, .void 2,
    .comp true [.arr (.prim ⟨.signed, 16, false⟩) true 5, .prim ⟨.boolean, 1, true⟩],
    .arr (.prim ⟨.unsigned, 12, true⟩) true 10]

/-- A value of `exampleTy`. -/
def exampleVal : Val :=
  .comp none [.prim [true, false, true], .void,
    .comp (some 0) [.arr [.prim (formatBin 16 0xBEEF)], .prim [false]],
    .arr [.prim (formatBin 12 0xABC), .prim (formatBin 12 0x123)]]

example : WfTy exampleTy = true ∧ hasTy exampleTy exampleVal = true := by decide +kernel
example : canon exampleTy exampleVal = exampleVal := by rfl

/-- C07: the encoding of any value has a length between the type's reported minimum and maximum bit length, with
and without tail-array optimisation. -/
theorem C07_encoded_size (t : Ty) (v : Val) (tao : Bool) (ht : WfTy t = true) (hv : hasTy t v = true) :
    ∃ bits, pack t v tao = .ok bits ∧ minBitlen t ≤ bits.length ∧ bits.length ≤ maxBitlen t := by
  obtain ⟨bits, h1, h2, h3, _⟩ := rt t v ht hv tao
  exact ⟨bits, h1, h2, h3⟩

example : minBitlen exampleTy = 3 + 2 + 1 ∧ maxBitlen exampleTy = 3 + 2 + (1 + 3 + 80) + (4 + 120) := by
  decide +kernel

/-- C08: decoding arbitrary bits as any type never runs forever (the tail-array loop never exhausts the iteration
bound it is given in the model). -/
theorem C08_terminates (t : Ty) (ht : WfTy t = true) (s : Bits) (tao : Bool) :
    unpack t s tao ≠ .error .diverge :=
  (unpack_prog t ht s tao).1

/-- C08: what is left over after decoding is a suffix of the input, at least the minimum length of the type (or
everything) has been consumed, and the decoded object is an object of the requested type. -/
theorem C08_consumes_prefix (t : Ty) (ht : WfTy t = true) (s : Bits) (tao : Bool) (v : Val) (r : Bits)
    (h : unpack t s tao = .ok (v, r)) :
    r <:+ s ∧ r.length ≤ s.length - minBitlen t ∧ hasTy t v = true := by
  have := (unpack_prog t ht s tao).2 v r h
  exact ⟨this.1, this.2, hasTy_unpack t s tao v r h⟩

/-- C08: a message obtained by decoding arbitrary bits can always be encoded again, and the result decodes to the same
content. -/
theorem C08_decoded_reencodes (t : Ty) (ht : WfTy t = true) (s : Bits) (tao tao' : Bool) (v : Val) (r : Bits)
    (h : unpack t s tao = .ok (v, r)) :
    ∃ bits rest, pack t v tao' = .ok bits ∧
      unpack t (bitsFromBytes (bytesFromBits bits)) tao' = .ok (canon t v, rest) :=
  C06_roundtrip_bytes t v tao' ht (hasTy_unpack t s tao v r h)

example : ∃ v r, unpack (.arr (.prim ⟨.unsigned, 8, false⟩) true 4) (bitsFromBytes [1#8, 2#8, 3#8]) true = .ok (v, r) :=
  ⟨.arr [.prim (formatBin 8 1), .prim (formatBin 8 2), .prim (formatBin 8 3)], [], by rfl⟩

/-- Full statement of C09: after decoding, every array respects its declared capacity. -/
def C09_statement : Prop :=
  ∀ (t : Ty) (s : Bits) (tao : Bool) (v : Val) (r : Bits),
    WfTy t = true → unpack t s tao = .ok (v, r) → capOk t v = true

/-- C09 is false of the code: a tail array `uint8[<=2]` decodes three bytes into three elements, and a counted array
`bool[<=2]` accepts the count 3. -/
theorem C09_counterexample : ¬ C09_statement ∧
    (∃ v r, unpack (.arr (.prim ⟨.unsigned, 8, false⟩) true 2) (bitsFromBytes [1#8, 2#8, 3#8]) true = .ok (v, r) ∧
      capOk (.arr (.prim ⟨.unsigned, 8, false⟩) true 2) v = false) ∧
    (∃ v r, unpack (.arr (.prim ⟨.boolean, 1, false⟩) true 2) (bitsFromBytes [0xF8#8]) false = .ok (v, r) ∧
      capOk (.arr (.prim ⟨.boolean, 1, false⟩) true 2) v = false) := by
  have h1 : unpack (.arr (.prim ⟨.unsigned, 8, false⟩) true 2) (bitsFromBytes [1#8, 2#8, 3#8]) true
      = .ok (.arr [.prim (formatBin 8 1), .prim (formatBin 8 2), .prim (formatBin 8 3)], []) := by rfl
  have h2 : unpack (.arr (.prim ⟨.boolean, 1, false⟩) true 2) (bitsFromBytes [0xF8#8]) false
      = .ok (.arr [.prim [true], .prim [true], .prim [true]], [false, false, false]) := by rfl
  refine ⟨fun h => ?_, ⟨_, _, h1, by decide⟩, ⟨_, _, h2, by decide⟩⟩
  have := h _ _ _ _ _ (by decide) h1
  revert this; decide

/-- C09, proved part 1: whatever an encoder of this library produced decodes to arrays within capacity. -/
theorem C09_encoder_output_partial (t : Ty) (v : Val) (tao : Bool) (ht : WfTy t = true) (hv : hasTy t v = true) :
    ∃ bits w rest, pack t v tao = .ok bits ∧
      unpack t (bitsFromBytes (bytesFromBits bits)) tao = .ok (w, rest) ∧ capOk t w = true := by
  obtain ⟨bits, rest, h1, h2⟩ := C06_roundtrip_bytes t v tao ht hv
  exact ⟨bits, _, rest, h1, h2, capOk_canon t ht v hv⟩

/-- C09, proved part 2: without tail-array optimisation, and if every dynamic array has a capacity of the form
`2^k - 1`, arbitrary input decodes to arrays within capacity. Missing: tail arrays and other capacities, where the
property fails. -/
theorem C09_pow2_partial (t : Ty) (hp : pow2Caps t = true) (s : Bits) (v : Val) (r : Bits)
    (h : unpack t s false = .ok (v, r)) : capOk t v = true :=
  capOk_unpack_false t hp s v r h

example : pow2Caps (.comp false [.arr (.prim ⟨.unsigned, 8, false⟩) true 255, .arr (.prim ⟨.float, 16, false⟩) false 9])
    = true := by decide +kernel

end Dronecan
