import Verif.Model.TextField
import Verif.Proofs.Utf8
import Verif.Props.Container
import Verif.Props.Codec
import Verif.Proofs.Compound

/-!
# Text in array fields (C123)
-/

namespace Dronecan
namespace TextField
open PyM

/-! ## Specification

`Utf8.Says text bytes` (RFC 3629): these are the bytes of the text. -/

/-- A Python string. -/
def IsStr (text : List Nat) : Prop := ∀ c ∈ text, c < 0x110000

/-- The types of integers of 8 bits, which alone have string-like arrays. -/
def Char8 (p : PrimTy) : Prop := p.bitlen = 8 ∧ (p.kind = .unsigned ∨ p.kind = .signed)

/-- A text that is assigned to a dynamic array of 8-bit integers reads back if its bytes fit; otherwise `AttributeError` is raised and the
field keeps its contents. -/
def C123_statement : Prop :=
  ∀ (p : PrimTy) (m : Nat) (text : List Nat) (items : List Val), Char8 p → IsStr text → items.length ≤ m →
    (∀ bytes, Utf8.Says text bytes → bytes.length ≤ m →
      ∃ items', assign p true m text items = (.ok (), items') ∧ decode p true items' = .ok text) ∧
    ((¬ ∃ bytes, Utf8.Says text bytes ∧ bytes.length ≤ m) → assign p true m text items = (.error .attributeError, items))

/-! ## Lemmas -/

/-- Appending values all of which can be stored. -/
theorem arrExtend_all {V S : Type} (ops : ElemOps V S) (m : Nat) (f : V → S) (vs : List V) (hf : ∀ v ∈ vs, ops.wr v = .ok (f v)) :
    ∀ l : List S, l.length ≤ m → arrExtend ops m vs l =
      (if l.length + vs.length ≤ m then .ok () else .error .indexError, l ++ (vs.take (m - l.length)).map f) := by
  induction vs with
  | nil => intro l hl; simp [arrExtend, PyM.forEach, PyM.pure, hl]
  | cons v vs ih =>
    intro l hl
    unfold arrExtend PyM.forEach PyM.bind
    by_cases h : l.length = m
    · have e : arrAppend ops m v l = (.error .indexError, l) := by
        simp only [arrAppend, arrInsert]
        rw [if_pos (by omega)]
      rw [e]
      simp [h]
    · have e : arrAppend ops m v l = (.ok (), l ++ [f v]) := by
        simp only [arrAppend, arrInsert]
        rw [if_neg (by omega), if_neg h, hf v List.mem_cons_self]
        have hc : pyClamp l.length (l.length : Int) = l.length := by
          unfold pyClamp
          simp only
          rw [if_neg (by omega), if_neg (by omega), if_neg (by omega)]
          omega
        simp only [pyListInsert, hc, List.take_length, List.drop_length]
      rw [e]
      have := ih (fun w hw => hf w (List.mem_cons_of_mem _ hw)) (l ++ [f v]) (by simp; omega)
      unfold arrExtend at this
      simp only [this, List.length_append, List.length_cons, List.length_nil]
      have e2 : m - l.length = (m - (l.length + (0 + 1))) + 1 := by omega
      rw [e2, List.take_succ_cons]
      simp [Nat.add_assoc, Nat.add_comm 1]

/-- The element that holds a byte. -/
def item (p : PrimTy) (b : Nat) : Val := .prim ((setInt p (Int.ofNat b)).toOption.getD [])

theorem setInt_ok (p : PrimTy) (h : Char8 p) (x : Int) : ∃ b, setInt p x = .ok b := by
  obtain ⟨k, n, t⟩ := p
  rcases h.2 with h | h <;> simp only at h <;> subst h <;> exact ⟨_, rfl⟩

theorem item_eq (p : PrimTy) (h : Char8 p) (b : Nat) : (valElem (.prim p)).wr (.int (Int.ofNat b)) = .ok (item p b) := by
  obtain ⟨x, hx⟩ := setInt_ok p h (Int.ofNat b)
  simp only [valElem, item, hx, Except.toOption, Option.getD_some]

theorem stringLike_char8 {p : PrimTy} (h : Char8 p) : stringLike p true = true := by simp [stringLike, h.1]

/-- What assigning a text does. -/
theorem assign_spec (p : PrimTy) (hp : Char8 p) (m : Nat) (text : List Nat) (items : List Val) :
    assign p true m text items =
      match Utf8.encode text with
      | none => (.error .attributeError, [])
      | some bytes => (if bytes.length ≤ m then .ok () else .error .attributeError, (bytes.take m).map (item p)) := by
  simp only [assign, arrClear_run, encode, if_pos (stringLike_char8 hp), PyM.bind_run, arrDelSlice_all]
  cases Utf8.encode text with
  | none => rfl
  | some bytes =>
    simp only
    rw [arrExtend_all (valElem (.prim p)) m (fun v => match v with | .int x => item p x.toNat | .obj v => v) _
      (by
        intro v hv
        obtain ⟨b, -, rfl⟩ := List.mem_map.1 hv
        exact item_eq p hp b) [] (Nat.zero_le _)]
    simp only [List.length_nil, List.length_map, Nat.zero_add, Nat.sub_zero, List.nil_append, ← List.map_take, List.map_map]
    by_cases h : bytes.length ≤ m
    · rw [if_pos h, if_pos h]
      rfl
    · rw [if_neg h, if_neg h]
      rfl

/-- The number in an element. -/
theorem number_item (p : PrimTy) (hp : Char8 p) (b : Nat) (v : Int) (h : assignRead p (Int.ofNat b) = .ok (some v)) (rest : List Val) :
    numbers p (item p b :: rest) = v :: numbers p rest := by
  obtain ⟨x, hx⟩ := setInt_ok p hp (Int.ofNat b)
  unfold assignRead at h
  rw [hx] at h
  simp only [Except.ok.injEq] at h
  simp only [numbers, item, hx, Except.toOption, Option.getD_some, List.filterMap_cons, h]

theorem numbers_map (p : PrimTy) (hp : Char8 p) (f : Nat → Int) (bytes : List Nat)
    (h : ∀ b ∈ bytes, assignRead p (Int.ofNat b) = .ok (some (f b))) : numbers p (bytes.map (item p)) = bytes.map f := by
  induction bytes with
  | nil => rfl
  | cons b bytes ih =>
    rw [List.map_cons, number_item p hp b _ (h b List.mem_cons_self), ih fun x hx => h x (List.mem_cons_of_mem _ hx), List.map_cons]

theorem read_unsigned (t : Bool) (b : Nat) (h : b < 256) : assignRead ⟨.unsigned, 8, t⟩ (Int.ofNat b) = .ok (some (Int.ofNat b)) := by
  cases t with
  | false => rw [C03_unsigned_saturated 8 (by decide)]; congr 2; simp; omega
  | true => rw [C03_unsigned_truncated 8 (by decide)]; congr 2; simp; omega

theorem read_ascii (t : Bool) (b : Nat) (h : b < 128) : assignRead ⟨.signed, 8, t⟩ (Int.ofNat b) = .ok (some (Int.ofNat b)) := by
  cases t with
  | false => rw [C04_signed_saturated_partial 8 (by decide) (by decide)]; congr 2; simp; omega
  | true =>
    have e : Int.bmod (Int.ofNat b) (2 ^ 8) = Int.ofNat b := by
      simp only [Int.bmod]; simp; omega
    rw [C04_signed_truncated 8 (by decide), e]

theorem toBytes_items (p : PrimTy) (hp : Char8 p) (bytes : List Nat) (hb : ∀ b ∈ bytes, b < 256)
    (h : ∀ b ∈ bytes, assignRead p (Int.ofNat b) = .ok (some (Int.ofNat b))) : toBytes p (bytes.map (item p)) = .ok bytes := by
  unfold toBytes
  rw [numbers_map p hp Int.ofNat bytes h, if_pos]
  · congr 1
    rw [List.map_map]
    conv => rhs; rw [← List.map_id bytes]
    apply List.map_congr_left
    intro b _
    rfl
  · rw [List.all_eq_true]
    intro x hx
    obtain ⟨b, hb', rfl⟩ := List.mem_map.1 hx
    have := hb b hb'
    simp only [Bool.and_eq_true, decide_eq_true_eq]
    constructor
    · exact Int.natCast_nonneg b
    · show (b : Int) < 256; omega

theorem char8_cases {p : PrimTy} (hp : Char8 p) : (∃ t, p = ⟨.unsigned, 8, t⟩) ∨ (∃ t, p = ⟨.signed, 8, t⟩) := by
  obtain ⟨k, n, t⟩ := p
  obtain ⟨h1, h2⟩ := hp
  simp only at h1 h2
  subst h1
  rcases h2 with rfl | rfl
  · exact .inl ⟨t, rfl⟩
  · exact .inr ⟨t, rfl⟩

/-! ## Theorems -/

/-- It is false: text beyond ASCII put into an array of `int8` is something else when it is read. -/
theorem C123_signed_counterexample : assign ⟨.signed, 8, false⟩ true 4 [0xE9] [] = (.ok (), [.prim (formatBin 8 127), .prim (formatBin 8 127)]) ∧
    decode ⟨.signed, 8, false⟩ true [.prim (formatBin 8 127), .prim (formatBin 8 127)] = .ok [127, 127] := by decide +kernel

/-- And a text that is too long leaves its beginning in the field, possibly with half a character, so that the field cannot be read any more. -/
theorem C123_cut_counterexample : assign ⟨.unsigned, 8, true⟩ true 3 [0x41, 0x42, 0xE9] [] =
      (.error .attributeError, [.prim (formatBin 8 0x41), .prim (formatBin 8 0x42), .prim (formatBin 8 0xC3)]) ∧
    decode ⟨.unsigned, 8, true⟩ true [.prim (formatBin 8 0x41), .prim (formatBin 8 0x42), .prim (formatBin 8 0xC3)] = .error .valueError := by
  decide +kernel

theorem C123_counterexample : ¬ C123_statement := by
  intro h
  obtain ⟨h1, -⟩ := h ⟨.signed, 8, false⟩ 4 [0xE9] [] ⟨rfl, .inr rfl⟩ (by intro c hc; simp at hc; omega) (Nat.zero_le _)
  obtain ⟨items', e1, e2⟩ := h1 [0xC3, 0xA9] (.cons (a := [0xC3, 0xA9]) (b := []) (.two 0xE9 (by decide) (by decide)) .nil) (by decide)
  rw [C123_signed_counterexample.1, Prod.mk.injEq] at e1
  rw [← e1.2, C123_signed_counterexample.2] at e2
  revert e2
  decide

/-- For arrays of `uint8`, saturated or truncated, a text that fits reads back, and the array holds its UTF-8 form. -/
theorem C123_partial (t : Bool) (m : Nat) (text bytes : List Nat) (items : List Val) (hs : IsStr text) (hb : Utf8.Says text bytes)
    (hm : bytes.length ≤ m) : ∃ items', assign ⟨.unsigned, 8, t⟩ true m text items = (.ok (), items') ∧
      decode ⟨.unsigned, 8, t⟩ true items' = .ok text ∧ toBytes ⟨.unsigned, 8, t⟩ items' = .ok bytes ∧
      items'.length = bytes.length ∧ ∀ other, eqText ⟨.unsigned, 8, t⟩ true items' other = .ok (decide (text = other)) := by
  have hp : Char8 ⟨.unsigned, 8, t⟩ := ⟨rfl, .inl rfl⟩
  have hbyte := Utf8.says_byte hb
  have e2 := toBytes_items _ hp bytes hbyte (fun b hb => read_unsigned t b (hbyte b hb))
  have e3 : decode ⟨.unsigned, 8, t⟩ true (bytes.map (item ⟨.unsigned, 8, t⟩)) = .ok text := by
    unfold decode
    rw [if_pos (stringLike_char8 hp), e2]
    simp only [Utf8.decode_says text bytes hb]
  refine ⟨bytes.map (item ⟨.unsigned, 8, t⟩), ?_, e3, e2, by simp, fun other => ?_⟩
  · rw [assign_spec _ hp, (Utf8.encode_spec text hs bytes).2 hb]
    simp only [if_pos hm, List.take_of_length_le hm]
  · unfold eqText
    rw [e3]
    by_cases h : text = other <;> simp [h]

/-- For all types of 8-bit integers a text is refused exactly if it does not fit or has no UTF-8 form; then the field holds the bytes that
fit, or nothing. -/
theorem C123_refused (p : PrimTy) (hp : Char8 p) (m : Nat) (text : List Nat) (items : List Val) (hs : IsStr text) :
    (∀ bytes, Utf8.Says text bytes → ((assign p true m text items).1 = .ok () ↔ bytes.length ≤ m) ∧
      (m < bytes.length → assign p true m text items = (.error .attributeError, (bytes.take m).map (item p)))) ∧
    ((∀ bytes, ¬ Utf8.Says text bytes) → assign p true m text items = (.error .attributeError, [])) ∧
    ((∀ bytes, ¬ Utf8.Says text bytes) ↔ ∃ c ∈ text, 0xD800 ≤ c ∧ c < 0xE000) := by
  refine ⟨fun bytes hb => ?_, fun hn => ?_, ?_⟩
  · rw [assign_spec p hp, (Utf8.encode_spec text hs bytes).2 hb]
    constructor
    · by_cases h : bytes.length ≤ m <;> simp [h]
    · intro h
      simp only [if_neg (show ¬ bytes.length ≤ m by omega)]
  · rw [assign_spec p hp]
    cases he : Utf8.encode text with
    | none => rfl
    | some bytes => exact absurd ((Utf8.encode_spec text hs bytes).1 he) (hn bytes)
  · constructor
    · intro hn
      refine Classical.byContradiction fun hc => ?_
      have : ∃ bytes, Utf8.Says text bytes := by
        clear hn
        induction text with
        | nil => exact ⟨[], .nil⟩
        | cons c cs ih =>
          obtain ⟨b, hb⟩ := ih (fun x hx => hs x (List.mem_cons_of_mem _ hx)) (fun ⟨x, hx, h⟩ => hc ⟨x, List.mem_cons_of_mem _ hx, h⟩)
          have h1 := hs c List.mem_cons_self
          have h2 : ¬ (0xD800 ≤ c ∧ c < 0xE000) := fun h => hc ⟨c, List.mem_cons_self, h⟩
          by_cases a1 : c < 0x80
          · exact ⟨_, .cons (.one c a1) hb⟩
          by_cases a2 : c < 0x800
          · exact ⟨_, .cons (.two c (by omega) a2) hb⟩
          by_cases a3 : c < 0x10000
          · exact ⟨_, .cons (.three c (by omega) a3 h2) hb⟩
          · exact ⟨_, .cons (.four c (by omega) h1) hb⟩
      exact absurd this.choose_spec (hn _)
    · rintro ⟨c, hc, h1, h2⟩ bytes hb
      induction hb with
      | nil => cases hc
      | cons h _ ih =>
        rcases List.mem_cons.1 hc with rfl | hc
        · cases h <;> omega
        · exact ih (fun x hx => hs x (List.mem_cons_of_mem _ hx)) hc

/-- Arrays of `int8` hold ASCII texts, and no others: whatever the array holds after another text was accepted, it is not read as that text. -/
theorem C123_signed (t : Bool) (m : Nat) (text bytes : List Nat) (items : List Val) (hs : IsStr text) (hb : Utf8.Says text bytes)
    (hm : bytes.length ≤ m) : ∃ items', assign ⟨.signed, 8, t⟩ true m text items = (.ok (), items') ∧
      (decode ⟨.signed, 8, t⟩ true items' = .ok text ↔ ∀ c ∈ text, c < 128) := by
  have hp : Char8 ⟨.signed, 8, t⟩ := ⟨rfl, .inr rfl⟩
  have hbyte := Utf8.says_byte hb
  refine ⟨bytes.map (item ⟨.signed, 8, t⟩), ?_, ?_⟩
  · rw [assign_spec _ hp, (Utf8.encode_spec text hs bytes).2 hb]
    simp only [if_pos hm, List.take_of_length_le hm]
  · constructor
    · intro h
      rw [decode, if_pos (stringLike_char8 hp)] at h
      cases hx : toBytes ⟨.signed, 8, t⟩ (bytes.map (item ⟨.signed, 8, t⟩)) with
      | error e => rw [hx] at h; cases h
      | ok bs =>
        rw [hx] at h
        simp only at h
        cases hy : Utf8.decode bs with
        | none => rw [hy] at h; cases h
        | some s =>
          rw [hy] at h
          simp only [Except.ok.injEq] at h
          subst h
          have hbs := (Utf8.decode_spec s bs).1 hy
          refine (Utf8.says_ascii hbs).1 ?_
          unfold toBytes at hx
          split at hx
          · injection hx with hx
            subst hx
            intro x hx
            obtain ⟨y, hy', rfl⟩ := List.mem_map.1 hx
            have : ∀ (bytes : List Nat), (∀ b ∈ bytes, b < 256) → ∀ y ∈ numbers ⟨.signed, 8, t⟩ (bytes.map (item ⟨.signed, 8, t⟩)), y < 128 := by
              intro bytes
              induction bytes with
              | nil => intro _ y hy; cases hy
              | cons b bytes ih =>
                intro hlt y hy
                have hlt' := hlt b List.mem_cons_self
                have : ∃ v, assignRead ⟨.signed, 8, t⟩ (Int.ofNat b) = .ok (some v) ∧ v < 128 := by
                  cases t with
                  | false => exact ⟨_, C04_signed_saturated_partial 8 (by decide) (by decide) _, by simp; omega⟩
                  | true => exact ⟨_, C04_signed_truncated 8 (by decide) _, by simp only [Int.bmod]; simp; omega⟩
                obtain ⟨v, hv, hv'⟩ := this
                rw [List.map_cons, number_item _ hp b v hv] at hy
                rcases List.mem_cons.1 hy with rfl | hy
                · exact hv'
                · exact ih (fun x hx => hlt x (List.mem_cons_of_mem _ hx)) y hy
            have := this bytes hbyte y hy'
            omega
          · cases hx
    · intro h
      have ha := (Utf8.says_ascii hb).2 h
      have e2 := toBytes_items _ hp bytes hbyte (fun b hb => read_ascii t b (ha b hb))
      unfold decode
      rw [if_pos (stringLike_char8 hp), e2]
      simp only [Utf8.decode_says text bytes hb]

/-- Any bytes that `decode` accepts say what it returns. -/
theorem C123_decode (p : PrimTy) (hp : Char8 p) (items : List Val) (text : List Nat) :
    decode p true items = .ok text ↔ ∃ bytes, toBytes p items = .ok bytes ∧ Utf8.Says text bytes := by
  rw [decode, if_pos (stringLike_char8 hp)]
  cases hx : toBytes p items with
  | error e => simp
  | ok bs =>
    simp only [Except.ok.injEq, exists_eq_left']
    rw [← Utf8.decode_spec]
    cases Utf8.decode bs with
    | none => simp
    | some s => simp

/-- Text in other arrays is refused, and the array is emptied. -/
theorem C123_other (p : PrimTy) (dynamic : Bool) (m : Nat) (text : List Nat) (items : List Val) (h : dynamic = false ∨ p.bitlen ≠ 8) :
    assign p dynamic m text items = (.error .attributeError, []) ∧ decode p dynamic items = .error .valueError ∧
      encode p dynamic m text items = (.error .valueError, items) := by
  have hl : stringLike p dynamic = false := by
    rcases h with h | h <;> simp [stringLike, h]
  simp only [assign, arrClear_run, encode, decode, hl]
  exact ⟨rfl, rfl, rfl⟩

/-- `encode` replaces whatever the array holds, as the assignment does; a text that has no UTF-8 form empties it. -/
theorem C123_encode (t : Bool) (m : Nat) (text bytes : List Nat) (items : List Val) (hs : IsStr text) :
    (Utf8.Says text bytes → bytes.length ≤ m → ∃ items', encode ⟨.unsigned, 8, t⟩ true m text items = (.ok (), items') ∧
      toBytes ⟨.unsigned, 8, t⟩ items' = .ok bytes ∧ decode ⟨.unsigned, 8, t⟩ true items' = .ok text) ∧
    ((∀ bytes, ¬ Utf8.Says text bytes) → encode ⟨.unsigned, 8, t⟩ true m text items = (.error .valueError, [])) := by
  have hp : Char8 ⟨.unsigned, 8, t⟩ := ⟨rfl, .inl rfl⟩
  have same : encode ⟨.unsigned, 8, t⟩ true m text items = encode ⟨.unsigned, 8, t⟩ true m text [] := by
    simp only [encode, if_pos (stringLike_char8 hp), PyM.bind_run, arrDelSlice_all]
  constructor
  · intro hb hm
    obtain ⟨items', h1, h2, h3, -⟩ := C123_partial t m text bytes items hs hb hm
    refine ⟨items', ?_, h3, h2⟩
    rw [same]
    simp only [assign, arrClear_run] at h1
    cases he : encode ⟨.unsigned, 8, t⟩ true m text [] with
    | mk r l =>
      rw [he] at h1
      cases r with
      | ok u => cases u; exact h1
      | error e => simp at h1
  · intro hn
    cases hu : Utf8.encode text with
    | some b => exact absurd ((Utf8.encode_spec text hs b).1 hu) (hn b)
    | none =>
      simp only [encode, if_pos (stringLike_char8 hp), PyM.bind_run, arrDelSlice_all, hu]
      rfl

example : encode ⟨.unsigned, 8, true⟩ true 3 [0xE9] [.prim (formatBin 8 65), .prim (formatBin 8 66)] =
    (.ok (), [.prim (formatBin 8 0xC3), .prim (formatBin 8 0xA9)]) := by decide +kernel

theorem canonFields_get (fs : List Ty) : ∀ (vs : List Val) (i : Nat) (f : Ty) (v : Val), fs[i]? = some f → vs[i]? = some v →
    (canonFields fs vs)[i]? = some (canon f v) := by
  induction fs with
  | nil => intro vs i f v h; simp at h
  | cons g fs ih =>
    intro vs i f v hf hv
    cases vs with
    | nil => simp at hv
    | cons w vs =>
      cases i with
      | zero =>
        simp only [List.getElem?_cons_zero, Option.some.injEq] at hf hv
        subst hf hv
        simp [canonFields]
      | succ i =>
        simp only [List.getElem?_cons_succ] at hf hv
        simpa [canonFields] using ih vs i f v hf hv

/-- Through the wire: a message with a text in one of its fields, packed and unpacked, has that text in that field, with and without
tail array optimisation. -/
theorem C123_wire (fs : List Ty) (vs : List Val) (a : Option Nat) (tao : Bool) (ht : WfTy (.comp false fs) = true)
    (hv : hasTy (.comp false fs) (.comp a vs) = true) (i : Nat) (t : Bool) (m : Nat) (text bytes : List Nat) (items before : List Val)
    (hf : fs[i]? = some (.arr (.prim ⟨.unsigned, 8, t⟩) true m)) (hi : vs[i]? = some (.arr items)) (hs : IsStr text)
    (hb : Utf8.Says text bytes) (hm : bytes.length ≤ m) (hset : assign ⟨.unsigned, 8, t⟩ true m text before = (.ok (), items)) :
    ∃ bits rest b vs' items', pack (.comp false fs) (.comp a vs) tao = .ok bits ∧
      unpack (.comp false fs) (bitsFromBytes (bytesFromBits bits)) tao = .ok (.comp b vs', rest) ∧
      vs'[i]? = some (.arr items') ∧ decode ⟨.unsigned, 8, t⟩ true items' = .ok text := by
  obtain ⟨items', h1, h2, -, h3, -⟩ := C123_partial t m text bytes before hs hb hm
  rw [hset, Prod.mk.injEq] at h1
  obtain ⟨-, rfl⟩ := h1
  obtain ⟨bits, rest, e1, e2⟩ := C06_roundtrip_bytes (.comp false fs) (.comp a vs) tao ht hv
  refine ⟨bits, rest, none, canonFields fs vs, items, e1, e2, ?_, h2⟩
  rw [canonFields_get fs vs i _ _ hf hi]
  have : items.take m = items := List.take_of_length_le (by omega)
  simp only [canon, if_true, this]
  congr 2
  conv => rhs; rw [← List.map_id items]
  apply List.map_congr_left
  intro v _
  cases v <;> rfl

/-- The items of an array of bytes are bytes. -/
theorem toBytes_total (t : Bool) (items : List Val) (h : ∀ x ∈ items, hasTy (.prim ⟨.unsigned, 8, t⟩) x = true) :
    ∃ bytes : List Byte, toBytes ⟨.unsigned, 8, t⟩ items = .ok (bytes.map (·.toNat)) ∧ bytes.length = items.length := by
  have key : ∃ bytes : List Byte, numbers ⟨.unsigned, 8, t⟩ items = bytes.map (fun b => (b.toNat : Int)) ∧ bytes.length = items.length := by
    induction items with
    | nil => exact ⟨[], rfl, rfl⟩
    | cons x items ih =>
      obtain ⟨bytes, h1, h2⟩ := ih (fun z hz => h z (List.mem_cons_of_mem _ hz))
      have hx := h x List.mem_cons_self
      cases x with
      | prim b =>
        simp only [hasTy, beq_iff_eq] at hx
        have hb : b ≠ [] := by rintro rfl; simp at hx
        have hlt := natOfBits_lt b
        rw [hx] at hlt
        refine ⟨BitVec.ofNat 8 (natOfBits b) :: bytes, ?_, by simp [h2]⟩
        have hg : getInt ⟨.unsigned, 8, t⟩ b = some (natOfBits b : Int) := by simp only [getInt, if_neg hb]
        unfold numbers at h1 ⊢
        simp only [List.filterMap_cons, hg, h1, List.map_cons, BitVec.toNat_ofNat, Nat.mod_eq_of_lt hlt]
      | void => simp [hasTy] at hx
      | arr _ => simp [hasTy] at hx
      | comp _ _ => simp [hasTy] at hx
  obtain ⟨bytes, h1, h2⟩ := key
  refine ⟨bytes, ?_, h2⟩
  unfold toBytes
  rw [h1, if_pos]
  · simp [Function.comp_def]
  · simp only [List.all_map, List.all_eq_true, Function.comp_def, Bool.and_eq_true, decide_eq_true_eq]
    intro b _
    have := b.isLt
    omega

/-! ## The hypotheses can be met -/

/-- "né€😀". -/
def sample : List Nat := [0x6E, 0xE9, 0x20AC, 0x1F600]

theorem sample_says : Utf8.Says sample [0x6E, 0xC3, 0xA9, 0xE2, 0x82, 0xAC, 0xF0, 0x9F, 0x98, 0x80] :=
  (Utf8.decode_spec _ _).1 (by decide +kernel)

example : IsStr sample := by intro c hc; simp [sample] at hc; omega

example : (assign ⟨.unsigned, 8, false⟩ true 10 sample []).1 = .ok () ∧ (assign ⟨.unsigned, 8, false⟩ true 9 sample []).1 ≠ .ok () := by
  decide +kernel

example : assign ⟨.unsigned, 8, false⟩ true 10 [0x41, 0xD800] [] = (.error .attributeError, []) := by decide +kernel

example : ∃ items, assign ⟨.unsigned, 8, true⟩ true 10 sample [] = (.ok (), items) ∧
    hasTy (.comp false [.prim ⟨.unsigned, 3, false⟩, .arr (.prim ⟨.unsigned, 8, true⟩) true 10]) (.comp none [.prim (formatBin 3 5), .arr items]) = true :=
  ⟨(assign ⟨.unsigned, 8, true⟩ true 10 sample []).2, by decide +kernel, by decide +kernel⟩

end TextField
end Dronecan
