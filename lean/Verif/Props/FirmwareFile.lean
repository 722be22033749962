import Verif.Model.FirmwareFile
import Verif.Props.FileWire

/-!
# The firmware is served under the name that the device is told (C151)
-/

namespace Dronecan
namespace FirmwareFile
open Files FileWire

/-! ## Specification -/

/-- The digits of base 64 (RFC 4648). -/
def Digit (c : Char) (v : Nat) : Prop :=
  ('A'.toNat ≤ c.toNat ∧ c.toNat ≤ 'Z'.toNat ∧ v = c.toNat - 'A'.toNat) ∨ ('a'.toNat ≤ c.toNat ∧ c.toNat ≤ 'z'.toNat ∧ v = c.toNat - 'a'.toNat + 26) ∨
  ('0'.toNat ≤ c.toNat ∧ c.toNat ≤ '9'.toNat ∧ v = c.toNat - '0'.toNat + 52) ∨ (c = '+' ∧ v = 62) ∨ (c = '/' ∧ v = 63)

/-- A number in base 64. -/
inductive Number : List Char → Nat → Prop
  | nil : Number [] 0
  | snoc {cs : List Char} {n : Nat} {c : Char} {v : Nat} (h : Number cs n) (hd : Digit c v) : Number (cs ++ [c]) (n * 64 + v)

/-- The number with the four bytes in the opposite order. -/
def swapped (n : BitVec 32) : Nat :=
  ((n.toNat % 256 * 256 + n.toNat / 256 % 256) * 256 + n.toNat / 65536 % 256) * 256 + n.toNat / 16777216

/-- A request to the server, for a part of a file or for information. -/
inductive Request where
  | read (v : Val)
  | info (v : Val)

/-- The server after some requests, whatever the files were each time. -/
def after (d : Shape) (s : Server) : List (FS × Request) → Server
  | [] => s
  | (fs, .read v) :: rest => after d (onRead d fs v s).2 rest
  | (fs, .info v) :: rest => after d (onInfo d fs v s).2 rest

/-! ## Names -/

theorem char_digit : ∀ n < 64, ∃ v, v = n ∧ Digit (char n) v := by
  have : ∀ n : Fin 64, (let c := char n.val; ('A'.toNat ≤ c.toNat ∧ c.toNat ≤ 'Z'.toNat ∧ n.val = c.toNat - 'A'.toNat) ∨
    ('a'.toNat ≤ c.toNat ∧ c.toNat ≤ 'z'.toNat ∧ n.val = c.toNat - 'a'.toNat + 26) ∨
    ('0'.toNat ≤ c.toNat ∧ c.toNat ≤ '9'.toNat ∧ n.val = c.toNat - '0'.toNat + 52) ∨ (c = '+' ∧ n.val = 62) ∨ (c = '/' ∧ n.val = 63)) := by
    decide +kernel
  intro n hn
  exact ⟨n, rfl, this ⟨n, hn⟩⟩

theorem digit (n : Nat) (h : n < 64) : Digit (char n) n := by
  obtain ⟨v, rfl, hv⟩ := char_digit n h
  exact hv

theorem pack_toNat (n : BitVec 32) : (pack n).map (·.toNat) = [n.toNat % 256, n.toNat / 256 % 256, n.toNat / 65536 % 256, n.toNat / 16777216] := by
  have := n.isLt
  simp only [pack, List.map_cons, List.map_nil, BitVec.extractLsb'_toNat, Nat.shiftRight_eq_div_pow]
  simp only [List.cons.injEq, and_true, Nat.reducePow, Nat.div_one]
  refine ⟨trivial, trivial, trivial, by omega⟩

theorem digit_ascii {c : Char} {v : Nat} (h : Digit c v) : c.toNat < 128 := by
  simp only [Digit] at h
  have h1 : 'Z'.toNat < 128 := by decide
  have h2 : 'z'.toNat < 128 := by decide
  have h3 : '9'.toNat < 128 := by decide
  rcases h with h | h | h | ⟨rfl, -⟩ | ⟨rfl, -⟩
  · omega
  · omega
  · omega
  · decide
  · decide

theorem number_ascii {cs : List Char} {n : Nat} (h : Number cs n) : ∀ c ∈ cs, c.toNat < 128 := by
  induction h with
  | nil => intro c hc; cases hc
  | snoc h hd ih =>
    intro c hc
    rcases List.mem_append.1 hc with hc | hc
    · exact ih c hc
    · obtain rfl : c = _ := by simpa using hc
      exact digit_ascii hd

/-- **C151** (the name): it is the CRC, its bytes in the opposite order and four zero bits after them, in base 64: six digits. They are followed by "=". -/
theorem C151_name (crc : Str → BitVec 32) (firmware : Str) :
    ∃ digits, fileHash crc firmware = digits ++ ['='] ∧ digits.length = 6 ∧ Number digits (swapped (crc firmware) * 16) := by
  have h := pack_toNat (crc firmware)
  have hlt := (crc firmware).isLt
  simp only [fileHash, swapped]
  generalize crc firmware = n at h hlt
  obtain ⟨a, b, c, d, hp⟩ : ∃ a b c d, pack n = [a, b, c, d] := ⟨_, _, _, _, rfl⟩
  rw [hp] at h ⊢
  simp only [List.map_cons, List.map_nil, List.cons.injEq, and_true] at h
  obtain ⟨ha, hb, hc, hd⟩ := h
  rw [← ha, ← hb, ← hc, ← hd]
  have := a.isLt; have := b.isLt; have := c.isLt; have := d.isLt
  refine ⟨[char (a.toNat / 4), char (a.toNat % 4 * 16 + b.toNat / 16), char (b.toNat % 16 * 4 + c.toNat / 64), char (c.toNat % 64),
    char (d.toNat / 4), char (d.toNat % 4 * 16)], rfl, rfl, ?_⟩
  have e : (((a.toNat * 256 + b.toNat) * 256 + c.toNat) * 256 + d.toNat) * 16 =
      (((((0 * 64 + a.toNat / 4) * 64 + (a.toNat % 4 * 16 + b.toNat / 16)) * 64 + (b.toNat % 16 * 4 + c.toNat / 64)) * 64 + c.toNat % 64) * 64 +
        d.toNat / 4) * 64 + d.toNat % 4 * 16 := by omega
  rw [e]
  exact .snoc (cs := [_, _, _, _, _]) (.snoc (cs := [_, _, _, _]) (.snoc (cs := [_, _, _]) (.snoc (cs := [_, _]) (.snoc (cs := [_])
    (.snoc (cs := []) .nil (digit _ (by omega))) (digit _ (by omega))) (digit _ (by omega))) (digit _ (by omega))) (digit _ (by omega)))
    (digit _ (by omega))

/-- Bytes as one number, the first byte the most significant. -/
def bytesValue : List Byte → Nat → Nat
  | [], n => n
  | b :: rest, n => bytesValue rest (n * 256 + b.toNat)

theorem base64_from (bs : List Byte) : ∀ (before : List Char) (n : Nat), Number before n →
    ∃ digits pad, base64 bs = digits ++ List.replicate pad '=' ∧ pad = (3 - bs.length % 3) % 3 ∧ 3 * (digits.length + pad) = 4 * (bs.length + pad) ∧
      Number (before ++ digits) (bytesValue bs n * 4 ^ pad) := by
  induction bs using base64.induct with
  | case1 a b c rest ih =>
    intro before n h
    have := a.isLt; have := b.isLt; have := c.isLt
    have h4 : Number ((((before ++ [char (a.toNat / 4)]) ++ [char (a.toNat % 4 * 16 + b.toNat / 16)]) ++
        [char (b.toNat % 16 * 4 + c.toNat / 64)]) ++ [char (c.toNat % 64)]) (((n * 256 + a.toNat) * 256 + b.toNat) * 256 + c.toNat) := by
      have e : ((n * 256 + a.toNat) * 256 + b.toNat) * 256 + c.toNat =
        (((n * 64 + a.toNat / 4) * 64 + (a.toNat % 4 * 16 + b.toNat / 16)) * 64 + (b.toNat % 16 * 4 + c.toNat / 64)) * 64 + c.toNat % 64 := by omega
      rw [e]
      exact .snoc (.snoc (.snoc (.snoc h (digit _ (by omega))) (digit _ (by omega))) (digit _ (by omega))) (digit _ (by omega))
    obtain ⟨digits, pad, h1, h2, h3, h5⟩ := ih _ _ h4
    refine ⟨char (a.toNat / 4) :: char (a.toNat % 4 * 16 + b.toNat / 16) :: char (b.toNat % 16 * 4 + c.toNat / 64) :: char (c.toNat % 64) :: digits, pad,
      by simp only [base64, h1, List.cons_append], by simp only [List.length_cons]; omega,
      by simp only [List.length_cons]; omega, ?_⟩
    simpa [bytesValue, List.append_assoc] using h5
  | case2 a b =>
    intro before n h
    have := a.isLt; have := b.isLt
    refine ⟨[char (a.toNat / 4), char (a.toNat % 4 * 16 + b.toNat / 16), char (b.toNat % 16 * 4)], 1, rfl, rfl, rfl, ?_⟩
    have e : bytesValue [a, b] n * 4 ^ 1 =
      ((n * 64 + a.toNat / 4) * 64 + (a.toNat % 4 * 16 + b.toNat / 16)) * 64 + b.toNat % 16 * 4 := by simp only [bytesValue]; omega
    rw [e]
    have := Number.snoc (Number.snoc (Number.snoc h (digit (a.toNat / 4) (by omega))) (digit (a.toNat % 4 * 16 + b.toNat / 16) (by omega)))
      (digit (b.toNat % 16 * 4) (by omega))
    simpa [List.append_assoc] using this
  | case3 a =>
    intro before n h
    have := a.isLt
    refine ⟨[char (a.toNat / 4), char (a.toNat % 4 * 16)], 2, rfl, rfl, rfl, ?_⟩
    have e : bytesValue [a] n * 4 ^ 2 = (n * 64 + a.toNat / 4) * 64 + a.toNat % 4 * 16 := by simp only [bytesValue]; omega
    rw [e]
    have := Number.snoc (Number.snoc h (digit (a.toNat / 4) (by omega))) (digit (a.toNat % 4 * 16) (by omega))
    simpa [List.append_assoc] using this
  | case4 =>
    intro before n h
    exact ⟨[], 0, rfl, rfl, rfl, by simpa [bytesValue] using h⟩

/-- **C151** (base 64): whatever the bytes, the text is the bytes as one number, followed by two zero bits for every missing byte, in base 64. It is
    filled with "=" to four characters for every three bytes. -/
theorem C151_base64 (bs : List Byte) :
    ∃ digits pad, base64 bs = digits ++ List.replicate pad '=' ∧ pad = (3 - bs.length % 3) % 3 ∧ 3 * (digits.length + pad) = 4 * (bs.length + pad) ∧
      Number digits (bytesValue bs 0 * 4 ^ pad) := by
  simpa using base64_from bs [] 0 .nil

example : base64 [0x66#8, 0x6f#8, 0x6f#8, 0x62#8, 0x61#8] = "Zm9vYmE=".toList := by decide +kernel

theorem digit_unique {c : Char} {v w : Nat} (h : Digit c v) (h' : Digit c w) : v = w := by
  have e1 : 'A'.toNat = 65 := by decide
  have e2 : 'Z'.toNat = 90 := by decide
  have e3 : 'a'.toNat = 97 := by decide
  have e4 : 'z'.toNat = 122 := by decide
  have e5 : '0'.toNat = 48 := by decide
  have e6 : '9'.toNat = 57 := by decide
  have e7 : '+'.toNat = 43 := by decide
  have e8 : '/'.toNat = 47 := by decide
  simp only [Digit] at h h'
  rcases h with h | h | h | ⟨rfl, h⟩ | ⟨rfl, h⟩ <;> rcases h' with h' | h' | h' | ⟨hc, h'⟩ | ⟨hc, h'⟩ <;> (try subst hc) <;> first | omega | (cases hc)

theorem number_unique {cs : List Char} {n m : Nat} (h : Number cs n) (h' : Number cs m) : n = m := by
  induction h generalizing m with
  | nil =>
    generalize hx : ([] : List Char) = l at h'
    cases h' with
    | nil => rfl
    | snoc => simp at hx
  | @snoc cs n c v h hd ih =>
    generalize hx : cs ++ [c] = l at h'
    cases h' with
    | nil => simp at hx
    | @snoc cs' n' c' v' h2 hd2 =>
      obtain ⟨rfl, e⟩ := List.append_inj' hx rfl
      obtain rfl : c = c' := by simpa using e
      rw [ih h2, digit_unique hd hd2]

theorem swapped_inj {a b : BitVec 32} (h : swapped a = swapped b) : a = b := by
  apply BitVec.eq_of_toNat_eq
  have := a.isLt
  have := b.isLt
  simp only [swapped] at h
  have ea : a.toNat / 65536 = a.toNat / 256 / 256 ∧ a.toNat / 16777216 = a.toNat / 256 / 256 / 256 := by omega
  have eb : b.toNat / 65536 = b.toNat / 256 / 256 ∧ b.toNat / 16777216 = b.toNat / 256 / 256 / 256 := by omega
  rw [ea.1, ea.2, eb.1, eb.2] at h
  have h1 := Nat.div_add_mod a.toNat 256
  have h2 := Nat.div_add_mod (a.toNat / 256) 256
  have h3 := Nat.div_add_mod (a.toNat / 256 / 256) 256
  have k1 := Nat.div_add_mod b.toNat 256
  have k2 := Nat.div_add_mod (b.toNat / 256) 256
  have k3 := Nat.div_add_mod (b.toNat / 256 / 256) 256
  have l1 := Nat.mod_lt a.toNat (y := 256) (by decide)
  have l2 := Nat.mod_lt (a.toNat / 256) (y := 256) (by decide)
  have l3 := Nat.mod_lt (a.toNat / 256 / 256) (y := 256) (by decide)
  have m1 := Nat.mod_lt b.toNat (y := 256) (by decide)
  have m2 := Nat.mod_lt (b.toNat / 256) (y := 256) (by decide)
  have m3 := Nat.mod_lt (b.toNat / 256 / 256) (y := 256) (by decide)
  have la : a.toNat / 256 / 256 / 256 < 256 := by omega
  have lb : b.toNat / 256 / 256 / 256 < 256 := by omega
  generalize a.toNat % 256 = x0 at *
  generalize a.toNat / 256 % 256 = x1 at *
  generalize a.toNat / 256 / 256 % 256 = x2 at *
  generalize a.toNat / 256 / 256 / 256 = x3 at *
  generalize b.toNat % 256 = y0 at *
  generalize b.toNat / 256 % 256 = y1 at *
  generalize b.toNat / 256 / 256 % 256 = y2 at *
  generalize b.toNat / 256 / 256 / 256 = y3 at *
  have : x3 = y3 := by omega
  subst this
  have : x2 = y2 := by omega
  subst this
  have : x1 = y1 := by omega
  subst this
  have : x0 = y0 := by omega
  subst this
  omega

/-- **C151** (the name): firmware files with different CRCs of their paths have different names. -/
theorem C151_distinct (crc : Str → BitVec 32) (a b : Str) : fileHash crc a = fileHash crc b ↔ crc a = crc b := by
  constructor
  · intro h
    obtain ⟨da, ha, -, na⟩ := C151_name crc a
    obtain ⟨db, hb, -, nb⟩ := C151_name crc b
    rw [ha, hb] at h
    obtain ⟨rfl, -⟩ := List.append_inj' h rfl
    have := number_unique na nb
    exact swapped_inj (by omega)
  · intro h
    simp only [fileHash, h]

/-! ## Requests -/

theorem told_ascii (crc : Str → BitVec 32) (firmware : Str) : (told crc firmware).length = 7 ∧ ∀ c ∈ told crc firmware, c < 128 := by
  obtain ⟨digits, h1, h2, h3⟩ := C151_name crc firmware
  simp only [told, h1]
  refine ⟨by simp [h2], ?_⟩
  intro c hc
  obtain ⟨x, hx, rfl⟩ := List.mem_map.1 hc
  rcases List.mem_append.1 hx with hx | hx
  · exact number_ascii h3 x hx
  · obtain rfl : x = '=' := by simpa using hx
    decide

/-- The server still serves the firmware. -/
def Serving (crc : Str → BitVec 32) (firmware : Str) (s : Server) : Prop := s.lookup = [] ∧ s.pathMap = [(fileHash crc firmware, firmware)]

theorem resolve_keeps (fs : FS) (path : Str) (s : Server) :
    (resolvePath fs path s).2.lookup = s.lookup ∧ (resolvePath fs path s).2.pathMap = s.pathMap := by
  simp only [resolvePath]
  (repeat' split) <;> exact ⟨rfl, rfl⟩

theorem open_keeps (fs : FS) (path : Str) (s : Server) :
    (openFile fs path s).2.lookup = s.lookup ∧ (openFile fs path s).2.pathMap = s.pathMap := by
  have := resolve_keeps fs path s
  simp only [openFile, PyM.bind]
  cases h : resolvePath fs path s with
  | mk r s' =>
    rw [h] at this
    cases r with
    | error e => exact this
    | ok p =>
      simp only
      cases fs.content p <;> exact this

theorem read_keeps (fs : FS) (path : Option Str) (off : Nat) (s : Server) :
    (Files.read fs path off s).2.lookup = s.lookup ∧ (Files.read fs path off s).2.pathMap = s.pathMap := by
  cases path with
  | none => exact ⟨rfl, rfl⟩
  | some path =>
    have := open_keeps fs path s
    simp only [Files.read, Files.answer, PyM.bind]
    cases h : openFile fs path s with
    | mk r s' =>
      rw [h] at this
      cases r <;> exact this

theorem getInfo_keeps (fs : FS) (path : Option Str) (s : Server) :
    (getInfo fs path s).2.lookup = s.lookup ∧ (getInfo fs path s).2.pathMap = s.pathMap := by
  cases path with
  | none => exact ⟨rfl, rfl⟩
  | some path =>
    have := open_keeps fs path s
    simp only [getInfo, Files.answer, PyM.bind]
    cases h : openFile fs path s with
    | mk r s' =>
      rw [h] at this
      cases r <;> exact this

theorem onRead_keeps (d : Shape) (fs : FS) (v : Val) (s : Server) :
    (onRead d fs v s).2.lookup = s.lookup ∧ (onRead d fs v s).2.pathMap = s.pathMap := by
  simp only [onRead]
  split
  · split
    · exact ⟨rfl, rfl⟩
    · split
      · exact ⟨rfl, rfl⟩
      · rename_i p _ _ o _
        have := read_keeps fs (some p) o.toNat { s with maxSize := d.dataMax }
        split
        · rename_i h; rw [h] at this; exact this
        · rename_i h; rw [h] at this; exact this
        · rename_i h
          rw [h] at this
          split <;> exact this
  · exact ⟨rfl, rfl⟩

theorem onInfo_keeps (d : Shape) (fs : FS) (v : Val) (s : Server) :
    (onInfo d fs v s).2.lookup = s.lookup ∧ (onInfo d fs v s).2.pathMap = s.pathMap := by
  simp only [onInfo]
  split
  · split
    · exact ⟨rfl, rfl⟩
    · rename_i p _
      have := getInfo_keeps fs (some p) s
      split
      · rename_i h; rw [h] at this; exact this
      · rename_i h; rw [h] at this; exact this
      · rename_i h
        rw [h] at this
        split <;> exact this
  · exact ⟨rfl, rfl⟩

theorem serving (crc : Str → BitVec 32) (firmware : Str) (d : Shape) (rs : List (FS × Request)) :
    Serving crc firmware (after d (server crc firmware) rs) := by
  have go : ∀ (rs : List (FS × Request)) (s : Server), Serving crc firmware s → Serving crc firmware (after d s rs) := by
    intro rs
    induction rs with
    | nil => exact fun s h => h
    | cons r rs ih =>
      intro s h
      obtain ⟨fs, r⟩ := r
      cases r with
      | read v => exact ih _ ⟨(onRead_keeps d fs v s).1.trans h.1, (onRead_keeps d fs v s).2.trans h.2⟩
      | info v => exact ih _ ⟨(onInfo_keeps d fs v s).1.trans h.1, (onInfo_keeps d fs v s).2.trans h.2⟩
  exact go rs _ ⟨rfl, rfl⟩

theorem pathOf_told (crc : Str → BitVec 32) (firmware : Str) : pathOf (told crc firmware) = fileHash crc firmware := by
  simp [pathOf, told, List.map_map, Function.comp_def]

theorem ascii_says (text : List Nat) (h : ∀ c ∈ text, c < 128) : Utf8.Says text text := by
  induction text with
  | nil => exact .nil
  | cons c cs ih => exact .cons (a := [c]) (.one c (h c (by simp))) (ih fun x hx => h x (by simp [hx]))

theorem serves {crc : Str → BitVec 32} {firmware : Str} {s : Server} (h : Serving crc firmware s) {fs : FS} {content : List Byte}
    (hc : fs.content firmware = some content) : Serves fs s (pathOf (told crc firmware)) content := by
  rw [pathOf_told]
  refine ⟨firmware, ?_, hc⟩
  simp [resolvePath, h.2, Dict.get?]

/-- **C151** (the device), after any requests of any nodes: with the name that it was told, in at most 7 bytes, the device can ask for any part of the file, and it is answered
with the bytes of the firmware at the offset. -/
theorem C151_served (crc : Str → BitVec 32) (firmware : Str) (d : Shape) (hp : 7 ≤ d.pathMax) (fs : FS) (content : List Byte)
    (hc : fs.content firmware = some content) (rs : List (FS × Request)) (off : Nat) (ho : off < 2 ^ 40) :
    (∃ v, MadeRead d off (told crc firmware) v ∧ hasTy d.readRequest v = true ∧ canon d.readRequest v = v) ∧
    (∀ v, AsksRead d off (told crc firmware) v → ∃ w s', onRead d fs v (after d (server crc firmware) rs) = (.ok w, s') ∧
      TellsRead d 0 ((content.drop off).take d.dataMax) w ∧ hasTy d.readResponse w = true) := by
  obtain ⟨hl, ha⟩ := told_ascii crc firmware
  refine ⟨?_, ?_⟩
  · obtain ⟨v, h1, h2, h3, -⟩ := C125_made d off ho (told crc firmware)
      ⟨fun c hc => Nat.lt_trans (ha c hc) (by decide), told crc firmware, ascii_says _ ha, by omega⟩
    exact ⟨v, h1, h2, h3⟩
  · intro v hv
    exact (C125_partial d fs _ off (told crc firmware) v hv).1 content (serves (serving crc firmware d rs) hc)

theorem tells_unique {d : Shape} {x y : List Byte} {w : Val} (h : TellsRead d 0 x w) (h' : TellsRead d 0 y w) : x = y := by
  obtain ⟨a, b, e, items, rfl, -, h2⟩ := h
  obtain ⟨a', b', e', items', hw, -, h2'⟩ := h'
  injection hw with _ hw
  injection hw with _ hw
  injection hw with hw _
  injection hw with hw
  subst hw
  rw [h2] at h2'
  injection h2' with h2'
  exact List.map_inj_right (fun _ _ h => BitVec.eq_of_toNat_eq h) |>.1 h2'

/-- **C151** (the file): a device that asks with this name for the bytes at 0, and as long as it gets as many as a response holds for those that follow,
has the firmware in the end. `tell off`: what it is told at an offset. -/
theorem C151_file (crc : Str → BitVec 32) (firmware : Str) (d : Shape) (hm : 0 < d.dataMax) (fs : FS) (content : List Byte)
    (hc : fs.content firmware = some content) (hl : content.length < 2 ^ 40) (tell : Nat → List Byte)
    (ht : ∀ off < 2 ^ 40, ∃ rs v w s', AsksRead d off (told crc firmware) v ∧ onRead d fs v (after d (server crc firmware) rs) = (.ok w, s') ∧
      TellsRead d 0 (tell off) w)
    (tries : Nat) (hn : content.length < d.dataMax * tries) : assemble d.dataMax tell tries 0 = some content := by
  refine C125_file d.dataMax hm content tell ?_ tries hn
  intro off ho
  obtain ⟨rs, v, w, s', h1, h2, h3⟩ := ht off (by omega)
  obtain ⟨w', s'', g1, g2, -⟩ := (C125_partial d fs _ off (told crc firmware) v h1).1 content (serves (serving crc firmware d rs) hc)
  rw [h2] at g1
  injection g1 with g1 _
  injection g1 with g1
  subst g1
  exact tells_unique h3 g2

/-- **C151** (nothing else): requests for any other path are answered with an error, whatever files there are. -/
theorem C151_only (crc : Str → BitVec 32) (firmware : Str) (d : Shape) (fs : FS) (rs : List (FS × Request)) (text : List Nat)
    (hn : pathOf text ≠ fileHash crc firmware) (off : Nat) (v : Val) (hv : AsksRead d off text v) :
    ∃ w s', onRead d fs v (after d (server crc firmware) rs) = (.ok w, s') ∧ TellsRead d 32767 [] w := by
  obtain ⟨e1, e2⟩ := serving crc firmware d rs
  have hserves : ¬ ∃ content, Serves fs (after d (server crc firmware) rs) (pathOf text) content := by
    rintro ⟨content, p, hp, -⟩
    have : ((after d (server crc firmware) rs).pathMap.get? (pathOf text)) = none := by
      simp [e2, Dict.get?, Ne.symm hn]
    simp only [resolvePath, this] at hp
    simp only [e1, tryResolve] at hp
    cases hp
  obtain ⟨w, s', h1, h2, -⟩ := (C125_partial d fs _ off text v hv).2 hserves
  exact ⟨w, s', h1, h2⟩

/-! ## Not vacuous -/

/-- The name for the CRC 0xDEADBEEF. -/
example : String.ofList (fileHash (fun _ => 0xDEADBEEF) "/tmp/fw.bin".toList) = "776t3g=" := by decide +kernel

end FirmwareFile
end Dronecan
