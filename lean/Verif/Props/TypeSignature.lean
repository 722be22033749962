import Verif.Props.References
import Verif.Props.Signature
import Verif.Proofs.Struct

/-!
# Signatures of definitions (C86, C87)
-/

namespace Dronecan
namespace Signature

/-! ## Specification: CRC-64-WE, one bit of the message after the other -/

/-- The register after one more bit of the message. -/
def step (r : BitVec 64) (b : Bool) : BitVec 64 :=
  if r.getLsbD 63 != b then (r <<< 1) ^^^ 0x42F0E1EBA9EA3693#64 else r <<< 1

/-- The value of a message that goes on after a part whose value is known. -/
def extend (v : BitVec 64) (message : List Bool) : BitVec 64 := ~~~ (message.foldl step (~~~ v))

/-- The value of a message. -/
def crc64 (message : List Bool) : BitVec 64 := extend 0 message

/-- The bits of an octet, the most significant first. -/
def octet (n : Nat) : List Bool := [n.testBit 7, n.testBit 6, n.testBit 5, n.testBit 4, n.testBit 3, n.testBit 2, n.testBit 1, n.testBit 0]

/-- A 64-bit number as octets, the least significant first. -/
def le64 (v : BitVec 64) : List Bool := [0, 1, 2, 3, 4, 5, 6, 7].flatMap (fun i => octet (v.toNat / 256 ^ i))

/-! ## Proofs -/

theorem extend_append (v : BitVec 64) (a b : List Bool) : extend v (a ++ b) = extend (extend v a) b := by
  simp only [extend, List.foldl_append, BitVec.not_not]

def top (b : Bool) : BitVec 64 := if b then 1#64 <<< 63 else 0

theorem step_eq (r : BitVec 64) (b : Bool) : step r b = bitV (r ^^^ top b) := by
  have hs : ((1#64 <<< 63) <<< 1 : BitVec 64) = 0#64 := by decide
  have ht : (1#64 <<< 63 : BitVec 64).getLsbD 63 = true := by decide
  cases b with
  | false => simp [step, bitV, top]
  | true =>
    unfold step bitV top
    simp only [if_true]
    rw [BitVec.getLsbD_xor, ht, shl_xor, hs, BitVec.xor_zero]

/-- Bits left-justified in the register. -/
def packBits : List Bool → BitVec 64
  | [] => 0#64
  | b :: bs => top b ^^^ (packBits bs >>> 1)

theorem packBits_low (bs : List Bool) (i : Nat) (h : i + bs.length < 64) : (packBits bs).getLsbD i = false := by
  induction bs generalizing i with
  | nil => simp [packBits]
  | cons b bs ih =>
    simp only [List.length_cons] at h
    simp only [packBits, BitVec.getLsbD_xor, BitVec.getLsbD_ushiftRight]
    rw [ih (1 + i) (by omega)]
    cases b with
    | false => simp [top]
    | true =>
      simp only [top, if_true, BitVec.getLsbD_shiftLeft]
      simp [show i < 63 by omega]

theorem foldl_step (bs : List Bool) (hl : bs.length ≤ 64) (c : BitVec 64) :
    bs.foldl step c = bitsV bs.length (c ^^^ packBits bs) := by
  induction bs generalizing c with
  | nil => simp [bitsV, packBits]
  | cons b bs ih =>
    simp only [List.length_cons] at hl
    rw [List.foldl_cons, ih (by omega), List.length_cons]
    simp only [bitsV]
    congr 1
    rw [step_eq]
    simp only [packBits]
    rw [← BitVec.xor_assoc, bitV_xor _ (packBits bs >>> 1)]
    congr 1
    have htop : (packBits bs >>> 1).getLsbD 63 = false := by
      rw [BitVec.getLsbD_ushiftRight]
      exact BitVec.getLsbD_of_ge _ _ (by omega)
    rw [bitV, htop]
    simp only [Bool.false_eq_true, if_false]
    apply BitVec.eq_of_getLsbD_eq
    intro i hi
    rw [BitVec.getLsbD_shiftLeft, BitVec.getLsbD_ushiftRight]
    by_cases h : i < 1
    · rw [packBits_low bs i (by omega)]
      simp [h]
    · simp [h, hi, show 1 + (i - 1) = i by omega]

theorem packBits_octet : ∀ b : BitVec 8, packBits (octet b.toNat) = b.setWidth 64 <<< 56 := by decide +kernel

theorem octet_mod (n : Nat) : octet (n % 256) = octet n := by
  have : ∀ i, i < 8 → (n % 256).testBit i = n.testBit i := by
    intro i hi
    rw [show 256 = 2 ^ 8 from rfl, Nat.testBit_mod_two_pow]
    simp [hi]
  simp only [octet, this 0 (by omega), this 1 (by omega), this 2 (by omega), this 3 (by omega), this 4 (by omega), this 5 (by omega),
    this 6 (by omega), this 7 (by omega)]

theorem byteV_octet (x : BitVec 64) (n : Nat) : byteV x (BitVec.ofNat 8 n) = (octet n).foldl step x := by
  rw [foldl_step _ (by simp [octet])]
  show bitsV 8 _ = bitsV 8 _
  rw [← packBits_octet, BitVec.toNat_ofNat, octet_mod]

theorem foldl_octets (data : List Nat) (x : BitVec 64) :
    (data.map (BitVec.ofNat 8)).foldl byteV x = (data.flatMap octet).foldl step x := by
  induction data generalizing x with
  | nil => rfl
  | cons n data ih => rw [List.map_cons, List.foldl_cons, ih, byteV_octet, List.flatMap_cons, List.foldl_append]

theorem value_toNat (x : BitVec 64) : value x.toNat = (~~~ x).toNat := by
  unfold value
  rw [mask_eq, Nat.mod_eq_of_lt x.isLt, ← BitVec.xor_allOnes, BitVec.toNat_xor]
  rfl

theorem init_toNat (e : Int) : init (some e) = (~~~ (BitVec.ofInt 64 e)).toNat := by
  rw [← BitVec.xor_allOnes, BitVec.toNat_xor]
  unfold init
  rfl

theorem value_extend (e : Int) (data : List Nat) : value (add (init (some e)) data) = (extend (BitVec.ofInt 64 e) (data.flatMap octet)).toNat := by
  rw [init_toNat, add_toNat, value_toNat, foldl_octets]
  rfl

theorem compute_crc64 (data : List Nat) : compute data = (crc64 (data.flatMap octet)).toNat := by
  unfold compute
  have : init none = (BitVec.allOnes 64).toNat := by decide
  rw [this, add_toNat, value_toNat, foldl_octets]
  rfl

end Signature

namespace Parser

open Text Signature

/-! ## Specification -/

/-- The fields of a definition, those of the response after those of the request. -/
def Def.allFields (d : Def) : List Field :=
  match d.response with
  | none => d.body.fields
  | some r => d.body.fields ++ r.fields

/-- The structures nested in a definition, in the order of the fields. -/
def Def.structures (d : Def) : List PTy := d.allFields.filterMap (fun f => f.type.structure?)

/-- The value goes on with the signature of every nested structure and the value so far. -/
def mixed (v : BitVec 64) (nested : List (BitVec 64)) : BitVec 64 := nested.foldl (fun v s => extend v (le64 s ++ le64 v)) v

/-! ## Proofs -/

theorem le64_bytes (v : BitVec 64) : (bytesFromCrc64 v.toNat).flatMap octet = le64 v := by
  simp only [bytesFromCrc64, packLE, le64, List.map_cons, List.map_nil, List.flatMap_cons, List.flatMap_nil, BitVec.toNat_ofNat]
  have h : ∀ n, octet (n % 2 ^ 8) = octet n := octet_mod
  simp only [h, Nat.div_div_eq_div_mul]
  simp

theorem mixField_toNat (x s : BitVec 64) : mixField x.toNat (some s.toNat) = (~~~ (extend (~~~ x) (le64 s ++ le64 (~~~ x)))).toNat := by
  unfold mixField
  rw [value_toNat]
  show Signature.add _ _ = _
  rw [add_toNat, add_toNat, foldl_octets, foldl_octets, le64_bytes, le64_bytes]
  simp only [extend, List.foldl_append, BitVec.not_not]

theorem mixFields_toNat (sigs : List (Option Nat)) (h : ∀ s ∈ sigs, ∀ n, s = some n → n < 2 ^ 64) (x : BitVec 64) :
    Signature.value (sigs.foldl mixField x.toNat) = (mixed (~~~ x) ((sigs.filterMap id).map (BitVec.ofNat 64))).toNat := by
  induction sigs generalizing x with
  | nil => exact value_toNat x
  | cons s sigs ih =>
    have ih := ih (fun s hs => h s (List.mem_cons_of_mem _ hs))
    cases s with
    | none => exact ih x
    | some n =>
      have hn : n = (BitVec.ofNat 64 n).toNat := by
        rw [BitVec.toNat_ofNat, Nat.mod_eq_of_lt (h _ List.mem_cons_self n rfl)]
      rw [List.foldl_cons]
      conv => lhs; rw [hn]
      rw [mixField_toNat, ih, BitVec.not_not]
      rfl

/-- The signature of the type of a field is that of the structure in it. -/
theorem dataTypeSignature_structure (t : PTy) : t.dataTypeSignature = t.structure?.bind PTy.dataTypeSignature := by
  induction t using PTy.rec (motive_2 := fun _ => True) with
  | void n => simp [PTy.structure?, PTy.dataTypeSignature]
  | prim p => simp [PTy.structure?, PTy.dataTypeSignature]
  | array e dy m ih => simp only [PTy.structure?, PTy.dataTypeSignature, ih]
  | compound n o u ns ts => simp [PTy.structure?]
  | nil => trivial
  | cons => trivial

theorem dataTypeSignature_range (t : PTy) (n : Nat) (h : t.dataTypeSignature = some n) : n < 2 ^ 64 := by
  induction t using PTy.rec (motive_2 := fun _ => True) with
  | void n => simp [PTy.dataTypeSignature] at h
  | prim p => simp [PTy.dataTypeSignature] at h
  | array e dy m ih => exact ih (by simpa only [PTy.dataTypeSignature] using h)
  | compound n o u ns ts =>
    simp only [PTy.dataTypeSignature, Option.some.injEq] at h
    subst h
    unfold Signature.value
    rw [mask_eq]
    exact Nat.xor_lt_two_pow (Nat.mod_lt _ (by decide)) (by decide)
  | nil => trivial
  | cons => trivial

theorem structure_compound (t c : PTy) (h : t.structure? = some c) : ∃ n, c.dataTypeSignature = some n := by
  induction t using PTy.rec (motive_2 := fun _ => True) with
  | void n => simp [PTy.structure?] at h
  | prim p => simp [PTy.structure?] at h
  | array e dy m ih => exact ih (by simpa only [PTy.structure?] using h)
  | compound n o u ns ts =>
    simp only [PTy.structure?, Option.some.injEq] at h
    subst h
    simp only [PTy.dataTypeSignature]
    exact ⟨_, rfl⟩
  | nil => trivial
  | cons => trivial

theorem signatures_structures (fs : List Field) :
    (fs.map (fun f => f.type.dataTypeSignature)).filterMap id =
      (fs.filterMap (fun f => f.type.structure?)).map (fun c => c.dataTypeSignature.getD 0) := by
  induction fs with
  | nil => rfl
  | cons f fs ih =>
    rw [List.map_cons, dataTypeSignature_structure]
    cases hs : f.type.structure? with
    | none => simpa [hs] using ih
    | some c =>
      obtain ⟨n, hn⟩ := structure_compound _ _ hs
      simpa [hs, hn] using ih

theorem signature_fields (d : Def) : d.dataTypeSignature =
    Signature.value ((d.allFields.map (fun f => f.type.dataTypeSignature)).foldl mixField (Signature.init (some d.dsdlSignature))) := by
  unfold Def.dataTypeSignature Def.allFields
  cases d.response <;> simp

/-! ## Theorems -/

/-- The DSDL signature is the CRC of the normalised text, unless it is overridden. -/
theorem C86_dsdl_signature (d : Def) :
    (d.override = none → d.dsdlSignature = ((crc64 (d.sourceText.flatMap (fun c => octet c.toNat))).toNat : Int)) ∧
    (∀ o, d.override = some o → d.dsdlSignature = o) := by
  refine ⟨?_, ?_⟩
  · intro h
    unfold Def.dsdlSignature Parser.dsdlSignature
    rw [h]
    dsimp only
    rw [compute_crc64, List.flatMap_map]
  · intro o h
    unfold Def.dsdlSignature Parser.dsdlSignature
    rw [h]

/-- The data type signature goes on from it with the signatures of the nested structures. -/
theorem C86_data_type_signature (d : Def) :
    d.dataTypeSignature = (mixed (BitVec.ofInt 64 d.dsdlSignature)
      (d.structures.map (fun c => BitVec.ofNat 64 (c.dataTypeSignature.getD 0)))).toNat := by
  rw [signature_fields, init_toNat, mixFields_toNat, BitVec.not_not, signatures_structures, List.map_map]
  · rfl
  · intro s hs n hn
    obtain ⟨f, -, rfl⟩ := List.mem_map.1 hs
    exact dataTypeSignature_range _ _ hn

theorem zipWith_fields (fs : List Field) :
    List.zipWith normField (fs.map Field.name) (fs.map Field.type) = fs.map (fun f => normField f.name f.type) := by
  induction fs with
  | nil => rfl
  | cons f fs ih => simp [ih]

theorem dataTypeSignatures_map (ts : List PTy) : dataTypeSignatures ts = ts.map PTy.dataTypeSignature := by
  induction ts with
  | nil => simp [dataTypeSignatures]
  | cons t ts ih => simp [dataTypeSignatures, ih]

/-- A message nested in a type has the signature that it has by itself. -/
theorem C86_nested (d : Def) (h : d.response = none) : d.asType.dataTypeSignature = some d.dataTypeSignature := by
  unfold Def.asType Def.dataTypeSignature
  simp only [PTy.dataTypeSignature]
  rw [dataTypeSignatures_map, zipWith_fields]
  simp only [Def.dsdlSignature, Def.sourceText, Attrs.defs, h, Option.map_none, List.append_nil, List.map_map]
  rfl

/-- Without nested structures both signatures are the same number of 64 bits. -/
theorem C86_plain (d : Def) (h : d.structures = []) : (d.dataTypeSignature : Int) = d.dsdlSignature % 2 ^ 64 := by
  rw [C86_data_type_signature, h]
  show ((BitVec.ofInt 64 d.dsdlSignature).toNat : Int) = _
  rw [BitVec.toNat_ofInt]
  omega

/-- For definitions in files: the nested structures are messages parsed from files, whose own signatures are mixed in. -/
theorem C86_files (fs : FS) (eval : Str → Option PyVal) (dirs : List Str) (n : Nat) (filename : Str) (d : Def)
    (h : parse fs eval dirs n filename = .ok d) :
    ∃ ds : List Def, (∀ d' ∈ ds, d'.response = none ∧ ∃ fn m, m < n ∧ parse fs eval dirs m fn = .ok d') ∧ d.structures = ds.map Def.asType ∧
      d.dataTypeSignature = (mixed (BitVec.ofInt 64 d.dsdlSignature) (ds.map (fun d' => BitVec.ofNat 64 d'.dataTypeSignature))).toNat := by
  have hall : ∀ c ∈ d.structures, ∃ d' : Def, (d'.response = none ∧ ∃ fn m, m < n ∧ parse fs eval dirs m fn = .ok d') ∧ c = d'.asType := by
    intro c hc
    unfold Def.structures at hc
    obtain ⟨f, hf, hs⟩ := List.mem_filterMap.1 hc
    have : ∃ a : Attrs, (a = d.body ∨ d.response = some a) ∧ f ∈ a.fields := by
      unfold Def.allFields at hf
      cases hr : d.response with
      | none => rw [hr] at hf; exact ⟨_, .inl rfl, hf⟩
      | some r =>
        rw [hr] at hf
        rcases List.mem_append.1 hf with hf | hf
        · exact ⟨_, .inl rfl, hf⟩
        · exact ⟨r, .inr rfl, hf⟩
    obtain ⟨a, ha, hfa⟩ := this
    obtain ⟨fn, m, d', hm, hp, hr, hcd, -⟩ := C81_structures fs eval dirs n filename d h a ha f hfa c hs
    exact ⟨d', ⟨hr, fn, m, by omega, hp⟩, hcd⟩
  have hlist : ∀ l : List PTy, (∀ c ∈ l, ∃ d' : Def, (d'.response = none ∧ ∃ fn m, m < n ∧ parse fs eval dirs m fn = .ok d') ∧ c = d'.asType) →
      ∃ ds : List Def, (∀ d' ∈ ds, d'.response = none ∧ ∃ fn m, m < n ∧ parse fs eval dirs m fn = .ok d') ∧ l = ds.map Def.asType := by
    intro l
    induction l with
    | nil => exact fun _ => ⟨[], by simp, rfl⟩
    | cons c l ih =>
      intro hl
      obtain ⟨d', h1, h2⟩ := hl c List.mem_cons_self
      obtain ⟨ds, h3, h4⟩ := ih (fun x hx => hl x (List.mem_cons_of_mem _ hx))
      refine ⟨d' :: ds, ?_, by rw [h2, h4]; rfl⟩
      intro x hx
      rcases List.mem_cons.1 hx with rfl | hx
      · exact h1
      · exact h3 x hx
  obtain ⟨ds, h1, h2⟩ := hlist _ hall
  refine ⟨ds, h1, h2, ?_⟩
  rw [C86_data_type_signature, h2, List.map_map]
  congr 2
  refine List.map_congr_left (fun d' hd' => ?_)
  show BitVec.ofNat 64 (d'.asType.dataTypeSignature.getD 0) = _
  rw [C86_nested d' (h1 d' hd').1]
  rfl

/-! ## Differences of nested structures -/

/-- Definitions with the same normalised text whose signatures match have nested structures whose signatures match. -/
def C87_statement : Prop :=
  ∀ (fs fs' : FS) (eval : Str → Option PyVal) (dirs : List Str) (n : Nat) (filename : Str) (d d' : Def),
    parse fs eval dirs n filename = .ok d → parse fs' eval dirs n filename = .ok d' → d.override = none → d'.override = none →
    d.sourceText = d'.sourceText → d.dataTypeSignature = d'.dataTypeSignature →
    d.structures.map PTy.dataTypeSignature = d'.structures.map PTy.dataTypeSignature

/-- Three files; the signature of the first is given. -/
def mixFS (sig : String) : FS where
  read s :=
    if s = lit "/ns/S.uavcan" then some (lit "A a\nB b")
    else if s = lit "/ns/A.uavcan" then some (lit ("OVERRIDE_SIGNATURE " ++ sig ++ "\nuint8 x"))
    else if s = lit "/ns/B.uavcan" then some (lit "uint8 x")
    else none
  listdir s := if s = lit "/ns" then some [lit "A.uavcan", lit "B.uavcan", lit "S.uavcan"] else none
  isfile _ := true

def resultOk (fs : FS) (p : Def → Bool) : Bool :=
  match parse fs (fun _ => none) [lit "/ns"] 3 (lit "/ns/S.uavcan") with
  | .ok d => p d
  | .error _ => false

theorem resultOk_spec {fs : FS} {p : Def → Bool} (h : resultOk fs p = true) :
    ∃ d, parse fs (fun _ => none) [lit "/ns"] 3 (lit "/ns/S.uavcan") = .ok d ∧ p d = true := by
  unfold resultOk at h
  split at h
  · rename_i d hd
    exact ⟨d, hd, h⟩
  · cases h

/-- It is false: the value so far is mixed in after the signature of the next structure with its octets in the other order, and this
map of values is not injective. -/
theorem C87_counterexample : ¬ C87_statement := by
  intro h
  obtain ⟨d, hd, h1⟩ := resultOk_spec (fs := mixFS "1234") (p := fun d => d.override.isNone && d.sourceText == lit "ns.S\nns.A a\nns.B b" &&
    d.dataTypeSignature == 0x1a98bada31ea667b && (d.structures.map PTy.dataTypeSignature).head? == some (some 0x1234)) (by decide +kernel)
  obtain ⟨d', hd', h2⟩ := resultOk_spec (fs := mixFS "0xf35b8145983a67") (p := fun d => d.override.isNone &&
    d.sourceText == lit "ns.S\nns.A a\nns.B b" && d.dataTypeSignature == 0x1a98bada31ea667b &&
    (d.structures.map PTy.dataTypeSignature).head? == some (some 0xf35b8145983a67)) (by decide +kernel)
  simp only [Bool.and_eq_true, beq_iff_eq, Option.isNone_iff_eq_none] at h1 h2
  have := h _ _ _ _ _ _ _ _ hd hd' h1.1.1.1 h2.1.1.1 (h1.1.1.2.trans h2.1.1.2.symm) (h1.1.2.trans h2.1.2.symm)
  rw [this, h2.2] at h1
  exact absurd h1.2 (by decide)

theorem extend_inj (v : BitVec 64) (a b : BitVec 64) (after : List Bool) (h : extend v (le64 a ++ after) = extend v (le64 b ++ after)) : a = b := by
  have hstep : ∀ (l : List Bool) (x y : BitVec 64), l.foldl step x = l.foldl step y → x = y := by
    intro l
    induction l with
    | nil => exact fun x y h => h
    | cons c l ih =>
      intro x y h
      have h1 := ih _ _ h
      rw [step_eq, step_eq] at h1
      have h2 := bitV_inj h1
      have := congrArg (fun u => u ^^^ top c) h2
      simpa [BitVec.xor_assoc] using this
  have hnot : ∀ x y : BitVec 64, ~~~ x = ~~~ y → x = y := fun x y e => by rw [← BitVec.not_not (b := x), e, BitVec.not_not]
  have h1 := hnot _ _ h
  rw [List.foldl_append, List.foldl_append] at h1
  have h2 := hstep _ _ _ h1
  rw [← le64_bytes, ← le64_bytes, ← foldl_octets, ← foldl_octets] at h2
  have hb : ∀ v : BitVec 64, (bytesFromCrc64 v.toNat).map (BitVec.ofNat 8) = packLE 8 v.toNat := by
    intro v
    unfold bytesFromCrc64
    rw [List.map_map]
    conv => rhs; rw [← List.map_id (packLE 8 v.toNat)]
    refine List.map_congr_left (fun b _ => ?_)
    simp
  have hl : ∀ v : BitVec 64, (packLE 8 v.toNat).length = 8 := fun v => by simp [packLE]
  rw [hb, hb, foldl_packed _ (by rw [hl]; omega), foldl_packed _ (by rw [hl]; omega), hl, hl] at h2
  have h3 := bitsV_inj 64 h2
  have h4 : packed (packLE 8 a.toNat) = packed (packLE 8 b.toNat) := by
    have := congrArg (fun u => (~~~ v) ^^^ u) h3
    simpa only [← BitVec.xor_assoc, BitVec.xor_self, BitVec.zero_xor] using this
  have h5 := packed_inj _ _ (by rw [hl, hl]) (by rw [hl]; omega) h4
  have h6 := congrArg unpackLE h5
  rw [unpackLE_packLE_lt _ _ (by exact a.isLt), unpackLE_packLE_lt _ _ (by exact b.isLt)] at h6
  exact BitVec.eq_of_toNat_eq h6

/-- What holds: if the definitions differ in the signature of the last nested structure only then their signatures differ; with one
nested structure this is all. -/
theorem C87_last_partial (d d' : Def) (ho : d.dsdlSignature = d'.dsdlSignature) (before : List PTy) (a b : PTy)
    (hs : d.structures = before ++ [a]) (hs' : d'.structures = before ++ [b]) (h : d.dataTypeSignature = d'.dataTypeSignature) :
    a.dataTypeSignature = b.dataTypeSignature := by
  rw [C86_data_type_signature, C86_data_type_signature, ← ho, hs, hs'] at h
  have h := BitVec.eq_of_toNat_eq h
  simp only [mixed, List.map_append, List.foldl_append, List.map_cons, List.map_nil, List.foldl_cons, List.foldl_nil] at h
  have h1 := extend_inj _ _ _ _ h
  have hm : ∀ (d : Def) (c : PTy), c ∈ d.structures → ∃ n, c.dataTypeSignature = some n ∧ n < 2 ^ 64 := by
    intro d c hc
    obtain ⟨f, -, hf⟩ := List.mem_filterMap.1 hc
    obtain ⟨n, hn⟩ := structure_compound _ _ hf
    exact ⟨n, hn, dataTypeSignature_range _ _ hn⟩
  obtain ⟨x, hx, hx'⟩ := hm d a (by rw [hs]; simp)
  obtain ⟨y, hy, hy'⟩ := hm d' b (by rw [hs']; simp)
  rw [hx, hy] at h1 ⊢
  have h2 := congrArg BitVec.toNat h1
  simp only [Option.getD_some, BitVec.toNat_ofNat] at h2
  rw [Nat.mod_eq_of_lt hx', Nat.mod_eq_of_lt hy'] at h2
  rw [h2]

/-- The check value of CRC-64-WE; and a definition with two nested structures. -/
example : crc64 ([49, 50, 51, 52, 53, 54, 55, 56, 57].flatMap octet) = 0x62EC59E3F1A4F00A#64 := by decide +kernel
example : resultOk (mixFS "7") (fun d => d.structures.length = 2 && d.dsdlSignature != d.dataTypeSignature) = true := by decide +kernel

end Parser
end Dronecan
