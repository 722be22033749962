import Verif.Props.Loaded

/-!
# Nodes with different definitions of a type (C131)
-/

namespace Dronecan
namespace Mismatch
open Parser Text Loaded Node PyM

/-! ## Specification -/

/-- No node that has this type `dt` under the ID receives a transfer when it has read these frames, in whatever company. -/
def Refused (dt : DataType) (service : Bool) (frames : List Frame) : Prop :=
  ∀ (env : Env) (ops : List Node.Op) (nid : Option Nat) (t : Int) (iv : Option Int) (ce fd : Bool) (it : Nat × Bool)
    (a b : List NetEv) (raw first : RawFrame) (rest : List RawFrame) (old : List Frame),
    Public ops → env.db dt.dtid service = some dt →
    netLog (run env ops (init nid t iv ce fd it)).trace = a ++ .frame raw :: b → raw.extended = true → Arrive frames (first :: rest) →
    ofKey raw.toFrame.key (framesIn a ++ [raw.toFrame]) = old ++ (first :: rest).map RawFrame.toFrame →
    ∀ tr b', b ≠ .transfer tr :: b'

/-- Two computers have definitions for the same data type ID, with different signatures. -/
structure Different (c c' : Computer) (f f' : String) (d d' : Def) (dt dt' : DataType) : Prop where
  here : c.parse f = .ok d
  there : c'.parse f' = .ok d'
  type : typeOf d = some dt
  type' : typeOf d' = some dt'
  kind : d.response.isSome = d'.response.isSome
  id : dt.dtid = dt'.dtid
  signature : d.dataTypeSignature ≠ d'.dataTypeSignature

/-- A transfer with content of the type is sent in these frames. -/
def Sent (dt : DataType) (hdr : Header) (frames : List Frame) : Prop :=
  ValidHeader hdr ∧ hdr.dtid = dt.dtid ∧ ∃ tid v fd t t', mkTransfer dt hdr tid v fd = .ok t ∧ toFrames t = .ok (t', frames)

/-- A node does not take content of another type for content of its own. -/
def C131_statement : Prop :=
  ∀ (c c' : Computer) (f f' : String) (d d' : Def) (dt dt' : DataType) (hdr : Header) (frames : List Frame),
    Different c c' f f' d d' dt dt' → hdr.service = d.response.isSome → Sent dt hdr frames → Refused dt' hdr.service frames

/-! ## Proofs -/

theorem crc16_inj (p : List Byte) : ∀ a b : BitVec 16, crc16 a p = crc16 b p → a = b := by
  induction p with
  | nil => intro a b h; exact h
  | cons x p ih =>
    intro a b h
    have h := ih (crcByte a x) (crcByte b x) h
    have h := crcBits_inj 8 h
    have h2 := congrArg (· ^^^ (x.setWidth 16 <<< 8 : BitVec 16)) h
    simpa [BitVec.xor_assoc] using h2

theorem checkCrc_ok {base : BitVec 16} {bytes rest : List Byte} (h : checkCrc base true bytes = .ok rest) :
    ∃ b0 b1, bytes = b0 :: b1 :: rest ∧ crc16 base rest = b0.setWidth 16 + (b1.setWidth 16 <<< 8) := by
  simp only [checkCrc, if_true] at h
  split at h
  · rename_i b0 b1 r
    split at h
    · cases h
    · rename_i hc
      cases h
      exact ⟨b0, b1, rfl, Classical.not_not.1 hc⟩
  · cases h

/-- The CRC of a transfer fits one initial value only. -/
theorem checkCrc_other {base base' : BitVec 16} {bytes rest : List Byte} (h : checkCrc base true bytes = .ok rest) (hb : base' ≠ base) :
    checkCrc base' true bytes = .error .transferError := by
  obtain ⟨b0, b1, rfl, hc⟩ := checkCrc_ok h
  simp only [checkCrc, if_true]
  rw [if_pos]
  rw [← hc]
  exact fun e => hb (crc16_inj rest _ _ e)

theorem refused_frames (db : Registry) (dt dt' : DataType) (hdr : Header) (hv : ValidHeader hdr) (tid : Nat) (v : Val) (fd : Bool) (t t' : OutTransfer)
    (frames p : List Frame) (hd : hdr.dtid = dt.dtid) (hmk : mkTransfer dt hdr tid v fd = .ok t) (hfr : toFrames t = .ok (t', frames))
    (hl : 1 < frames.length) (hb : p.map Frame.bare = frames) (hdb : db dt.dtid hdr.service = some dt') (hc : dt'.baseCrc ≠ dt.baseCrc) (tr : InTransfer) :
    fromFrames db p ≠ .ok tr := by
  intro h
  cases p with
  | nil => cases h
  | cons f fs =>
    obtain ⟨-, k, -, -, hcrc⟩ := C14_bytes_roundtrip t t' frames hfr
    have ht : t.header = hdr ∧ t.crc = dt.baseCrc := by
      unfold mkTransfer at hmk
      cases hp : pack (dt.payloadTy hdr.service hdr.request) v (!fd) with
      | error e => rw [hp] at hmk; cases hmk
      | ok bits =>
        rw [hp] at hmk
        cases hmk
        exact ⟨by rw [← hd], rfl⟩
    have hj : joinPayload (f :: fs) = joinPayload frames := by
      rw [← hb]
      simp [joinPayload, List.flatMap_map, Frame.bare]
    have hid : decodeId f.id = hdr := by
      have := C14_header_roundtrip t t' frames (by rw [ht.1]; exact hv) hfr f.bare (by rw [← hb]; simp)
      rw [ht.1] at this
      exact this
    have hlen : (f :: fs).length > 1 := by
      have : (f :: fs).length = frames.length := by rw [← hb, List.length_map]
      omega
    simp only [decide_eq_true_eq, hl, decide_true] at hcrc
    rw [ht.2] at hcrc
    have hx := checkCrc_other hcrc hc
    simp only [fromFrames, hid, hd, hdb] at h
    cases hval : validateFrames (f :: fs) with
    | error e => rw [hval] at h; cases h
    | ok x =>
      rw [hval] at h
      rw [hj] at h
      simp only [bind, Except.bind] at h
      have e1 : decide ((f :: fs).length > 1) = true := decide_eq_true hlen
      rw [e1, hx] at h
      cases h

theorem refused (dt dt' : DataType) (hdr : Header) (frames : List Frame) (hs : Sent dt hdr frames) (hid : dt.dtid = dt'.dtid)
    (hl : 1 < frames.length) (hc : dt.baseCrc ≠ dt'.baseCrc) : Refused dt' hdr.service frames := by
  obtain ⟨hv, hd, tid, v, fd, t, t', hmk, hfr⟩ := hs
  intro env ops nid t0 iv ce fd0 it a b raw first rest old hops hdb hlog hx hw hkey tr b' hb
  subst hb
  obtain ⟨a', raw', p, ha, hx', hcomp, hfrom⟩ := C91_only ops hops nid t0 iv ce fd0 it (a ++ [.frame raw]) b' tr (by rw [hlog]; simp)
  have haa := List.append_inj' ha rfl
  obtain ⟨rfl, hr⟩ := haa
  cases hr
  have hts : ∀ f ∈ frames, f.ts = none := by
    obtain ⟨id, _, _, e⟩ := toFrames_ok _ _ _ hfr
    rw [e]
    intro f hf
    exact ((frameLoop_content _ _ _ _ _ _).2.1 f hf).2.2.1
  have hbare := arrive_bare hw hts
  have hcomp' := completed_of_sent _ _ frames ((first :: rest).map RawFrame.toFrame) old hfr hbare
  rw [← hkey] at hcomp'
  have := completed_unique hcomp hcomp'
  subst this
  exact refused_frames env.db dt dt' hdr hv tid v fd t t' frames _ hd hmk hfr hl hbare (by rw [hid]; exact hdb) (Ne.symm hc) tr hfrom

/-- It is true of transfers of several frames, if the CRCs of the two signatures differ. (Missing: transfers of one frame have no CRC, and CRCs of 16 bits
of different signatures can be the same; `C131_counterexample`, `C131_crc_counterexample`.) -/
theorem C131_partial (c c' : Computer) (f f' : String) (d d' : Def) (dt dt' : DataType) (hdr : Header) (frames : List Frame)
    (h : Different c c' f f' d d' dt dt') (hs : Sent dt hdr frames) (hl : 1 < frames.length) (hc : dt.baseCrc ≠ dt'.baseCrc) :
    Refused dt' hdr.service frames := refused dt dt' hdr frames hs h.id hl hc

theorem typeOf_crc {d : Def} {dt : DataType} (h : typeOf d = some dt) : dt.baseCrc = crc16 0xFFFF (packLE 8 d.dataTypeSignature) := by
  unfold typeOf at h
  split at h
  · cases h
  · split at h
    · cases h
    · cases h; rfl

/-- The CRCs of signatures differ if the signatures, as eight bytes, lowest first, differ within 16 consecutive bits or in an odd number of bits. -/
theorem C131_close (c c' : Computer) (f f' : String) (d d' : Def) (dt dt' : DataType) (hdr : Header) (frames : List Frame)
    (h : Different c c' f f' d d' dt dt') (hs : Sent dt hdr frames) (hl : 1 < frames.length)
    (hc : IsBurst16 (bitDiff (packLE 8 d.dataTypeSignature) (packLE 8 d'.dataTypeSignature)) ∨
      IsOdd (bitDiff (packLE 8 d.dataTypeSignature) (packLE 8 d'.dataTypeSignature))) : Refused dt' hdr.service frames := by
  refine C131_partial c c' f f' d d' dt dt' hdr frames h hs hl ?_
  rw [typeOf_crc h.type, typeOf_crc h.type']
  exact C18_crc_changes _ _ _ rfl hc

/-- Different signatures can have the same CRC. -/
theorem C131_crc_counterexample : ¬ ∀ a b : Nat, a < 2 ^ 64 → b < 2 ^ 64 → a ≠ b → crc16 0xFFFF (packLE 8 a) ≠ crc16 0xFFFF (packLE 8 b) :=
  fun h => h 0 0x211001 (by decide) (by decide) (by decide) (by decide +kernel)

/-! ## Example: a field that is an unsigned number on one computer and a signed one on the other -/

/-- The computer with one file of this text. -/
def small (text : String) : Computer where
  fs := { read := fun s => if s = lit "/ns/7.A.uavcan" then some (lit text) else none, listdir := fun _ => none, isfile := fun _ => false }
  eval := exampleEval
  dirs := [lit "/ns"]
  depth := 3

def smallDef (text : String) : Def := ((small text).parse "/ns/7.A.uavcan").toOption.getD ⟨[], none, none, none, {}, none⟩

def smallType (text : String) : DataType := (typeOf (smallDef text)).getD { dtid := 0, baseCrc := 0, msg := .comp false [] }

theorem small_parse (text : String) (h : ((small text).parse "/ns/7.A.uavcan").toOption.isSome = true) :
    (small text).parse "/ns/7.A.uavcan" = .ok (smallDef text) := by
  unfold smallDef
  cases hp : (small text).parse "/ns/7.A.uavcan" with
  | error e => rw [hp] at h; cases h
  | ok d => rfl

theorem small_type (text : String) (h : (typeOf (smallDef text)).isSome = true) : typeOf (smallDef text) = some (smallType text) := by
  unfold smallType
  cases hp : typeOf (smallDef text) with
  | none => rw [hp] at h; cases h
  | some d => rfl

/-- The header of a message from node 5. -/
def smallHeader : Header := { prio := 16, dtid := 7, source := 5 }

/-- The transfer of the number 255. -/
def smallTransfer : OutTransfer :=
  ((mkTransfer (smallType "uint8 x") smallHeader 0 (.comp none [.prim (List.replicate 8 true)]) false).toOption).getD
    { header := smallHeader, tid := 0, payload := [], crc := 0 }

def smallFrame : RawFrame := { id := idLayout smallHeader, data := [0xFF#8, 0xC0#8] }

def smallEnv : Env where
  db d sv := if d = 7 ∧ sv = false then some (smallType "int8 x") else none
  script _ _ := {}
  statusPayload _ := { dt := { dtid := 341, baseCrc := 0, msg := .comp false [] }, val := .comp none [] }
  infoPayload _ := { dt := { dtid := 1, baseCrc := 0, msg := .comp false [] }, val := .comp none [] }
  lim := 3

def smallLog : List NetEv := netLog (run smallEnv [.spin0 [some smallFrame] [0]] (init (some 9) 0 none true false (1, true))).trace

deriving instance DecidableEq for RawFrame

/-- The frame, or the signed number in the transfer. -/
def seen : NetEv → Option RawFrame × Option Int
  | .frame raw => (some raw, none)
  | .transfer tr => (none, match tr.payload with | .comp _ [.prim bits] => getInt ⟨.signed, 8, false⟩ bits | _ => none)

/-- A node that takes the number for a signed one receives -1. -/
theorem small_log : smallLog.map seen = [(some smallFrame, none), (none, some (-1))] := by decide +kernel

theorem small_different : Different (small "uint8 x") (small "int8 x") "/ns/7.A.uavcan" "/ns/7.A.uavcan" (smallDef "uint8 x") (smallDef "int8 x")
    (smallType "uint8 x") (smallType "int8 x") where
  here := small_parse _ (by decide +kernel)
  there := small_parse _ (by decide +kernel)
  type := small_type _ (by decide +kernel)
  type' := small_type _ (by decide +kernel)
  kind := by decide +kernel
  id := by decide +kernel
  signature := by decide +kernel

theorem small_sent : Sent (smallType "uint8 x") smallHeader [{ id := smallFrame.id, bytes := smallFrame.data }] := by
  refine ⟨.message _ _ _ (by decide) (by decide) (by decide) (by decide), by decide +kernel, 0, .comp none [.prim (List.replicate 8 true)], false,
    smallTransfer, smallTransfer, ?_, ?_⟩
  · have h : (mkTransfer (smallType "uint8 x") smallHeader 0 (.comp none [.prim (List.replicate 8 true)]) false).toOption.isSome = true := by decide +kernel
    unfold smallTransfer
    cases hp : mkTransfer (smallType "uint8 x") smallHeader 0 (.comp none [.prim (List.replicate 8 true)]) false with
    | error e => rw [hp] at h; cases h
    | ok t => rfl
  · have h : (toFrames smallTransfer).toOption = some (smallTransfer, [{ id := smallFrame.id, bytes := smallFrame.data }]) := by decide +kernel
    cases hp : toFrames smallTransfer with
    | error e => rw [hp] at h; cases h
    | ok r =>
      rw [hp] at h
      simp only [Except.toOption, Option.some.injEq] at h
      rw [h]

/-- It is false: a transfer of one frame is decoded as if it were of the node's own type. -/
theorem C131_counterexample : ¬ C131_statement := by
  intro h
  have h := h _ _ _ _ _ _ _ _ smallHeader _ small_different (by decide +kernel) small_sent
  have hlog := small_log
  obtain ⟨x, l, hl, hx, hlog⟩ := List.map_eq_cons_iff.1 hlog
  obtain ⟨y, l', rfl, hy, hlog⟩ := List.map_eq_cons_iff.1 hlog
  cases List.map_eq_nil_iff.1 hlog
  cases x with
  | transfer tr => cases hx
  | frame raw =>
  cases y with
  | frame raw => cases hy
  | transfer tr =>
    cases hx
    refine h smallEnv [.spin0 [some smallFrame] [0]] (some 9) 0 none true false (1, true) [] [.transfer tr] smallFrame smallFrame [] []
      ?_ ?_ hl rfl (.cons ⟨rfl, rfl, rfl, rfl⟩ .nil) ?_ tr [] rfl
    · intro f hf; simp at hf
    · have : (smallType "int8 x").dtid = 7 := by decide +kernel
      rw [this]; rfl
    · decide +kernel

/-- Twenty numbers take four frames. -/
example : ∃ frames, Different (small "uint8[20] x") (small "int8[20] x") "/ns/7.A.uavcan" "/ns/7.A.uavcan" (smallDef "uint8[20] x")
      (smallDef "int8[20] x") (smallType "uint8[20] x") (smallType "int8[20] x") ∧
    Sent (smallType "uint8[20] x") smallHeader frames ∧ frames.length = 4 ∧ (smallType "uint8[20] x").baseCrc ≠ (smallType "int8[20] x").baseCrc := by
  have h : (((mkTransfer (smallType "uint8[20] x") smallHeader 3 (.comp none [.arr (List.replicate 20 (.prim (List.replicate 8 true)))]) false).toOption).bind
      (fun t => (toFrames t).toOption)).map (fun r => r.2.length) = some 4 := by decide +kernel
  cases hp : mkTransfer (smallType "uint8[20] x") smallHeader 3 (.comp none [.arr (List.replicate 20 (.prim (List.replicate 8 true)))]) false with
  | error e => rw [hp] at h; cases h
  | ok t =>
    rw [hp] at h
    simp only [Except.toOption, Option.bind_some] at h
    cases hf : toFrames t with
    | error e => rw [hf] at h; cases h
    | ok r =>
      rw [hf] at h
      refine ⟨r.2, ⟨small_parse _ (by decide +kernel), small_parse _ (by decide +kernel), small_type _ (by decide +kernel), small_type _ (by decide +kernel),
        by decide +kernel, by decide +kernel, by decide +kernel⟩, ⟨.message _ _ _ (by decide) (by decide) (by decide) (by decide), by decide +kernel, 3, _, _,
        _, r.1, hp, hf⟩, by simpa using h, by decide +kernel⟩

end Mismatch
end Dronecan
