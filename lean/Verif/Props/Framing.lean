import Verif.Props.Transfer
import Verif.Props.Codec

/-!
# C13-C16, C18: generation of frame sequences, round trip, CRC protection
-/

namespace Dronecan

/-! ## C13 -/

/-- The bytes carried by the frames of a transfer with (padded) payload `p`: `p` itself if it fits one frame, otherwise
the CRC in little-endian order followed by `p`. -/
def wireBytes (cap : Nat) (crcInit : BitVec 16) (p : List Byte) : List Byte :=
  if p.length ≤ cap then p
  else BitVec.ofNat 8 ((crc16 crcInit p).toNat % 256) :: BitVec.ofNat 8 ((crc16 crcInit p).toNat / 256) :: p

theorem crc_lo (c : BitVec 16) : (c &&& 0xFF#16).setWidth 8 = BitVec.ofNat 8 (c.toNat % 256) := by
  apply BitVec.eq_of_toNat_eq
  simp only [BitVec.toNat_setWidth, BitVec.toNat_and, BitVec.toNat_ofNat]
  rw [show 255 % 2 ^ 16 = 255 from rfl, and_8]

theorem crc_hi (c : BitVec 16) : (c >>> 8).setWidth 8 = BitVec.ofNat 8 (c.toNat / 256) := by
  apply BitVec.eq_of_toNat_eq
  simp [Nat.shiftRight_eq_div_pow]

/-- `toFrames` unfolded. -/
theorem toFrames_ok (t t' : OutTransfer) (frames : List Frame) (h : toFrames t = .ok (t', frames)) :
    ∃ id, encodeId t.header = .ok id ∧ t' = { t with payload := padPayload t.canfd t.payload } ∧
      frames = frameLoop id t.tid t.canfd true 0x20#8
        (wireBytes (frameCap t.canfd) t.crc (padPayload t.canfd t.payload)) := by
  simp only [toFrames, bind, Except.bind, pure, Except.pure] at h
  cases he : encodeId t.header with
  | error e => rw [he] at h; simp at h
  | ok id =>
    rw [he] at h
    simp only [Except.ok.injEq, Prod.mk.injEq] at h
    refine ⟨id, rfl, h.1.symm, ?_⟩
    rw [← h.2]
    congr 1
    unfold wireBytes
    by_cases hc : (padPayload t.canfd t.payload).length ≤ frameCap t.canfd
    · rw [if_pos hc, if_neg (by omega)]
    · rw [if_neg hc, if_pos (by omega), crc_lo, crc_hi]; rfl

theorem toFrames_of_id (t : OutTransfer) (id : Nat) (h : encodeId t.header = .ok id) :
    toFrames t = .ok ({ t with payload := padPayload t.canfd t.payload }, frameLoop id t.tid t.canfd true 0x20#8
        (wireBytes (frameCap t.canfd) t.crc (padPayload t.canfd t.payload))) := by
  have : ∃ r, toFrames t = .ok r := by
    simp only [toFrames, bind, Except.bind, pure, Except.pure, h]
    exact ⟨_, rfl⟩
  obtain ⟨⟨t', fr⟩, hr⟩ := this
  obtain ⟨id', h1, h2, h3⟩ := toFrames_ok t t' fr hr
  rw [h] at h1
  have : id = id' := by simpa using h1
  subst this
  rw [hr, h2, h3]

/-- C13: frame generation fails only if the header has no CAN identifier. -/
theorem C13_succeeds_iff (t : OutTransfer) : (∃ r, toFrames t = .ok r) ↔ ∃ id, encodeId t.header = .ok id := by
  constructor
  · rintro ⟨⟨t', fr⟩, h⟩
    obtain ⟨id, h1, _⟩ := toFrames_ok t t' fr h
    exact ⟨id, h1⟩
  · rintro ⟨id, h⟩
    exact ⟨_, toFrames_of_id t id h⟩

/-- C13: whatever the payload, transfer ID and header, the frames form one well-formed sequence with the transfer's
identifier; no frame exceeds 8 (CAN FD: 64) bytes and all but the last are full; the bytes they carry are the payload,
with at most 15 bytes of zero padding added for CAN FD and none for classic CAN, preceded by the CRC (over the padded
payload, little-endian) iff more than one frame is needed. -/
theorem C13_frame_sequence (t t' : OutTransfer) (frames : List Frame) (h : toFrames t = .ok (t', frames)) :
    frames ≠ [] ∧
    WellFormedSeq (t.tid % 32) frames ∧
    (∀ f ∈ frames, encodeId t.header = .ok f.id ∧ f.canfd = t.canfd) ∧
    (∀ f ∈ frames, f.bytes.length ≤ if t.canfd then 64 else 8) ∧
    (∀ f ∈ frames.dropLast, f.bytes.length = if t.canfd then 64 else 8) ∧
    ∃ k ≤ 15, (t.canfd = false → k = 0) ∧
      let padded := t.payload ++ List.replicate k 0#8
      let crc := crc16 t.crc padded
      (frames.length = 1 → joinPayload frames = padded) ∧
      (frames.length ≠ 1 → joinPayload frames =
        [BitVec.ofNat 8 (crc.toNat % 256), BitVec.ofNat 8 (crc.toNat / 256)] ++ padded) ∧
      (frames.length = 1 ↔ padded.length ≤ if t.canfd then 63 else 7) := by
  obtain ⟨id, h1, h2, h3⟩ := toFrames_ok t t' frames h
  obtain ⟨k, hk, hk0, hp⟩ := padPayload_append t.canfd t.payload
  rw [hp] at h3
  have hcap : frameCap t.canfd + 1 = if t.canfd then 64 else 8 := by cases t.canfd <;> rfl
  have hcap' : frameCap t.canfd = if t.canfd then 63 else 7 := rfl
  obtain ⟨c1, c2, c3, c4⟩ := frameLoop_content id t.tid t.canfd true 0x20#8
    (wireBytes (frameCap t.canfd) t.crc (t.payload ++ List.replicate k 0#8))
  have hwf := wellFormed_frameLoop id t.tid t.canfd
    (wireBytes (frameCap t.canfd) t.crc (t.payload ++ List.replicate k 0#8))
  have hne := frameLoop_ne_nil id t.tid t.canfd true 0x20#8
    (wireBytes (frameCap t.canfd) t.crc (t.payload ++ List.replicate k 0#8))
  rw [← h3] at c1 c2 c3 c4 hwf hne
  rw [hcap] at c2 c3
  have hlen : (wireBytes (frameCap t.canfd) t.crc (t.payload ++ List.replicate k 0#8)).length ≤ frameCap t.canfd ↔
      (t.payload ++ List.replicate k 0#8).length ≤ frameCap t.canfd := by
    unfold wireBytes
    split
    · rfl
    · simp only [List.length_cons]; omega
  rw [hlen] at c4
  refine ⟨hne, hwf, fun f hf => ⟨by rw [(c2 f hf).1]; exact h1, (c2 f hf).2.1⟩, fun f hf => (c2 f hf).2.2.2.2, c3, k, hk, hk0, ?_, ?_, ?_⟩
  · intro hl
    rw [c1]; unfold wireBytes; rw [if_pos (c4.1 hl)]
  · intro hl
    rw [c1]; unfold wireBytes; rw [if_neg (fun hh => hl (c4.2 hh))]; rfl
  · rw [← hcap']; exact c4

/-! ## C16 -/

/-- Call `to_frames` `n` times on the same transfer object and collect the results. -/
def callToFrames : Nat → OutTransfer → Except Err (List (List Frame))
  | 0, _ => .ok []
  | n + 1, t => do
    let (t, frames) ← toFrames t
    let rest ← callToFrames n t
    pure (frames :: rest)

/-- C16: any number of calls yields the same frames every time. -/
theorem C16_repeatable (t t' : OutTransfer) (frames : List Frame) (h : toFrames t = .ok (t', frames)) (n : Nat) :
    callToFrames n t = .ok (List.replicate n frames) ∧ toFrames t' = .ok (t', frames) := by
  have hagain : toFrames t' = .ok (t', frames) := by
    obtain ⟨id, h1, h2, h3⟩ := toFrames_ok t t' frames h
    have h1' : encodeId t'.header = .ok id := by rw [h2]; exact h1
    rw [toFrames_of_id t' id h1', h3, h2]
    simp only [padPayload_idem]
  refine ⟨?_, hagain⟩
  have all : ∀ n, callToFrames n t' = .ok (List.replicate n frames) := by
    intro n
    induction n with
    | zero => rfl
    | succ n ih =>
      simp only [callToFrames, bind, Except.bind, hagain, ih, pure, Except.pure]
      rfl
  cases n with
  | zero => rfl
  | succ n =>
    simp only [callToFrames, bind, Except.bind, h, all n, pure, Except.pure]
    rfl

/-! ## C15 -/

/-- Full statement of C15. -/
def C15_statement : Prop :=
  ∀ (t t' : OutTransfer) (frames : List Frame), t.canfd = true → toFrames t = .ok (t', frames) →
    ∀ f ∈ frames, f.bytes.length ∈ fdLengths

/-- C15, exact characterization of the payload lengths for which it holds: a CAN FD transfer consists of frames of
transmittable lengths unless the payload has 62 bytes, or at least 64 bytes with remainder 60 modulo 63. -/
theorem C15_exact_partial (t t' : OutTransfer) (frames : List Frame) (hfd : t.canfd = true)
    (h : toFrames t = .ok (t', frames)) :
    (∀ f ∈ frames, f.bytes.length ∈ fdLengths) ↔
      ¬ (t.payload.length = 62 ∨ (64 ≤ t.payload.length ∧ t.payload.length % 63 = 60)) := by
  obtain ⟨id, h1, h2, h3⟩ := toFrames_ok t t' frames h
  rw [hfd, padPayload_fd] at h3
  generalize hn : t.payload.length = n at h3
  have hlenp : (t.payload ++ List.replicate (fdPad n) 0#8).length = n + fdPad n := by simp [hn]
  have hne : frames ≠ [] := by rw [h3]; exact frameLoop_ne_nil _ _ _ _ _ _
  have hlast : (frames.getLast hne).bytes.length =
      if (wireBytes 63 t.crc (t.payload ++ List.replicate (fdPad n) 0#8)).length = 0 then 1
      else ((wireBytes 63 t.crc (t.payload ++ List.replicate (fdPad n) 0#8)).length - 1) % 63 + 2 := by
    subst h3
    exact frameLoop_last id t.tid true true 0x20#8 _ hne
  have hfull : ∀ f ∈ frames.dropLast, f.bytes.length = 64 := by
    have := (frameLoop_content id t.tid true true 0x20#8
      (wireBytes 63 t.crc (t.payload ++ List.replicate (fdPad n) 0#8))).2.2.1
    rw [h3]; exact this
  have hall : (∀ f ∈ frames, f.bytes.length ∈ fdLengths) ↔ (frames.getLast hne).bytes.length ∈ fdLengths := by
    constructor
    · intro hh; exact hh _ (List.getLast_mem hne)
    · intro hh f hf
      rw [← List.dropLast_concat_getLast hne, List.mem_append] at hf
      rcases hf with hf | hf
      · rw [hfull f hf]; decide
      · rw [List.mem_singleton.1 hf]; exact hh
  rw [hall, hlast]
  have hwl : (wireBytes 63 t.crc (t.payload ++ List.replicate (fdPad n) 0#8)).length =
      if n + fdPad n ≤ 63 then n + fdPad n else n + fdPad n + 2 := by
    unfold wireBytes
    rw [hlenp]
    split
    · exact hlenp
    · simp only [List.length_cons, hlenp]
  rw [hwl]
  by_cases h7 : n > 7
  · obtain ⟨e1, e2, e3⟩ := fdTotal_pad n h7
    obtain ⟨r1, r2, r3, r4⟩ := roundup_le (fdTotal n % 63) (by omega)
    by_cases h63 : n ≤ 63
    · rw [if_pos (e3.2 h63)]
      rw [if_neg (by omega)]
      have : ∀ k : Fin 64, k.val > 7 →
          ((k.val + fdPad k.val - 1) % 63 + 2 ∈ fdLengths ↔ ¬ (k.val = 62 ∨ (64 ≤ k.val ∧ k.val % 63 = 60))) := by
        decide +kernel
      exact this ⟨n, by omega⟩ h7
    · rw [if_neg (fun hh => h63 (e3.1 hh)), if_neg (by omega)]
      have ht : fdTotal n = n + 3 := by unfold fdTotal; rw [if_pos (by omega)]
      rw [ht] at e2
      have hm : (n + fdPad n + 2 - 1) % 63 = (datalengthRoundup ((n + 3) % 63) + 61) % 63 := by omega
      rw [hm]
      have : ∀ k : Fin 63, ((datalengthRoundup k.val + 61) % 63 + 2 ∈ fdLengths ↔ ¬ k.val = 0) := by
        decide +kernel
      rw [this ⟨(n + 3) % 63, by omega⟩]
      simp only
      omega
  · have : ∀ k : Fin 8, ((if (if k.val + fdPad k.val ≤ 63 then k.val + fdPad k.val else k.val + fdPad k.val + 2) = 0 then 1
        else ((if k.val + fdPad k.val ≤ 63 then k.val + fdPad k.val else k.val + fdPad k.val + 2) - 1) % 63 + 2) ∈ fdLengths
        ↔ ¬ (k.val = 62 ∨ (64 ≤ k.val ∧ k.val % 63 = 60))) := by
      decide +kernel
    exact this ⟨n, by omega⟩

/-- C15 is false of the code: a 62-byte payload gives a 63-byte CAN FD frame. -/
theorem C15_counterexample : ¬ C15_statement := by
  intro h
  have he : encodeId { prio := 0, source := 1, dtid := 1 } = .ok 257 := by rfl
  have ht := toFrames_of_id ⟨{ prio := 0, source := 1, dtid := 1 }, 0, List.replicate 62 0#8, 0#16, true⟩ 257 he
  have := (C15_exact_partial _ _ _ rfl ht).1 (h _ _ _ rfl ht)
  exact this (Or.inl (by simp))

/-- C15: the rounding used for padding picks the smallest transmittable length that is large enough. -/
theorem C15_roundup_least (n : Nat) (hn : n ≤ 64) :
    datalengthRoundup n ∈ fdLengths ∧ n ≤ datalengthRoundup n ∧ ∀ m ∈ fdLengths, n ≤ m → datalengthRoundup n ≤ m := by
  have : ∀ k : Fin 65, datalengthRoundup k ∈ fdLengths ∧ k.val ≤ datalengthRoundup k ∧
      ∀ m ∈ fdLengths, k.val ≤ m → datalengthRoundup k ≤ m := by decide +kernel
  exact this ⟨n, by omega⟩

/-! ## C14 -/

theorem setWidth_crc (c : BitVec 16) :
    (BitVec.ofNat 8 (c.toNat % 256)).setWidth 16 + ((BitVec.ofNat 8 (c.toNat / 256)).setWidth 16 <<< 8) = c := by
  rw [← crc_lo, ← crc_hi]; exact crc_bytes c

/-- C14 at the level of bytes: the frames generated from any transfer pass validation with the transfer ID modulo 32,
the CRC check succeeds, and the received payload is the sent one followed only by zero padding (none on classic CAN). -/
theorem C14_bytes_roundtrip (t t' : OutTransfer) (frames : List Frame) (h : toFrames t = .ok (t', frames)) :
    validateFrames frames = .ok (BitVec.ofNat 8 (t.tid % 32)) ∧
    ∃ k ≤ 15, (t.canfd = false → k = 0) ∧
      checkCrc t.crc (frames.length > 1) (joinPayload frames) = .ok (t.payload ++ List.replicate k 0#8) := by
  obtain ⟨c1, c2, c3, c4, c5, k, hk, hk0, c6, c7, c8⟩ := C13_frame_sequence t t' frames h
  constructor
  · rw [C17_accepts_iff]
    refine ⟨c1, ?_⟩
    have : (BitVec.ofNat 8 (t.tid % 32)).toNat = t.tid % 32 := by
      rw [BitVec.toNat_ofNat]; omega
    rw [this]; exact c2
  · refine ⟨k, hk, hk0, ?_⟩
    have hpos := List.length_pos_iff.2 c1
    by_cases hl : frames.length = 1
    · rw [c6 hl]
      simp [checkCrc, hl]
    · rw [c7 hl]
      have : frames.length > 1 := by omega
      simp only [checkCrc, this, decide_true, if_true, List.cons_append, List.nil_append, setWidth_crc]
      rw [if_neg (by simp)]

/-- C14 for headers: all frames carry an identifier that decodes to the sender's header. -/
theorem C14_header_roundtrip (t t' : OutTransfer) (frames : List Frame) (hv : ValidHeader t.header)
    (h : toFrames t = .ok (t', frames)) : ∀ f ∈ frames, decodeId f.id = t.header := by
  intro f hf
  have h1 := ((C13_frame_sequence t t' frames h).2.2.1 f hf).1
  obtain ⟨h2, _, h3⟩ := C12_header_roundtrip t.header hv
  rw [h2] at h1
  have : idLayout t.header = f.id := by simpa using h1
  rw [← this, h3]

/-- C14 end to end: a message object of any registered type, sent with any valid header and transfer ID over classic CAN
or CAN FD, is received as a transfer with the same header, transfer ID modulo 32 and content. -/
theorem C14_end_to_end (db : Registry) (dt : DataType) (hdr : Header) (tid : Nat) (v : Val) (fd : Bool)
    (hv : ValidHeader hdr) (hdt : hdr.dtid = dt.dtid) (hreg : db dt.dtid hdr.service = some dt)
    (hwf : WfTy (dt.payloadTy hdr.service hdr.request) = true)
    (hty : hasTy (dt.payloadTy hdr.service hdr.request) v = true) :
    ∃ t t' frames, mkTransfer dt hdr tid v fd = .ok t ∧ toFrames t = .ok (t', frames) ∧
      fromFrames db frames = .ok
        { header := hdr, tid := BitVec.ofNat 8 (tid % 32), ts := none,
          payload := canon (dt.payloadTy hdr.service hdr.request) v, canfd := fd } := by
  have hh : ({ hdr with dtid := dt.dtid } : Header) = hdr := by rw [← hdt]
  obtain ⟨bits, h1, _, _, h4⟩ := rt (dt.payloadTy hdr.service hdr.request) v hwf hty (!fd)
  have hmk : mkTransfer dt hdr tid v fd = .ok
      { header := hdr, tid, payload := bytesFromBits bits, crc := dt.baseCrc, canfd := fd } := by
    simp only [mkTransfer, bind, Except.bind, h1, pure, Except.pure, hh]
  obtain ⟨henc, _, hdec⟩ := C12_header_roundtrip hdr hv
  obtain ⟨⟨t', frames⟩, hfr⟩ := (C13_succeeds_iff
    { header := hdr, tid, payload := bytesFromBits bits, crc := dt.baseCrc, canfd := fd }).2 ⟨_, henc⟩
  refine ⟨_, t', frames, hmk, hfr, ?_⟩
  obtain ⟨hval, k, hk, hk0, hcrc⟩ := C14_bytes_roundtrip _ _ _ hfr
  have hids := C14_header_roundtrip _ _ _ hv hfr
  obtain ⟨hne, _, hcan, _⟩ := C13_frame_sequence _ _ _ hfr
  have hts : ∀ f ∈ frames, f.ts = none := by
    obtain ⟨id, _, _, e⟩ := toFrames_ok _ _ _ hfr
    rw [e]
    intro f hf
    exact ((frameLoop_content _ _ _ _ _ _).2.1 f hf).2.2.1
  have hany : frames.any (·.canfd) = fd := by
    cases frames with
    | nil => exact absurd rfl hne
    | cons f fs =>
      have hf := (hcan f List.mem_cons_self).2
      simp only at hf
      cases fd with
      | true => simp [hf]
      | false =>
        rw [List.any_eq_false]
        intro g hg
        have := (hcan g hg).2
        simp only at this
        simp [this]
  -- decoding
  have hdecode : ∃ rest, unpack (dt.payloadTy hdr.service hdr.request)
      (bitsFromBytes (bytesFromBits bits ++ List.replicate k 0#8)) (!fd)
        = .ok (canon (dt.payloadTy hdr.service hdr.request) v, rest) := by
    rw [bitsFromBytes_append, bitsFromBytes_bytesFromBits, List.append_assoc]
    obtain ⟨rest, h5, _⟩ := h4 (List.replicate (padLen bits.length) false ++ bitsFromBytes (List.replicate k 0#8)) (by
      intro hfd
      have : fd = false := by simpa using hfd
      rw [hk0 this]
      simp [padLen]; omega)
    exact ⟨rest, h5⟩
  obtain ⟨rest, hdecode⟩ := hdecode
  cases frames with
  | nil => exact absurd rfl hne
  | cons f fs =>
    have hid := hids f List.mem_cons_self
    simp only at hid
    simp only [fromFrames, bind, Except.bind, hval, hid, hdt, hreg, hcrc, hany, hdecode, pure, Except.pure,
      hts f List.mem_cons_self, hh]

/-- C14: what is sent has the type of the message or the request, or that of the response when the transfer is one. -/
theorem C14_by_direction (db : Registry) (dt : DataType) (hdr : Header) (tid : Nat) (v : Val) (fd : Bool) (ty : Ty)
    (hv : ValidHeader hdr) (hdt : hdr.dtid = dt.dtid) (hreg : db dt.dtid hdr.service = some dt)
    (hsel : ty = dt.msg ∧ ¬ (hdr.service = true ∧ hdr.request = false) ∨ ty = dt.resp ∧ hdr.service = true ∧ hdr.request = false)
    (hwf : WfTy ty = true) (hty : hasTy ty v = true) :
    ∃ t t' frames, mkTransfer dt hdr tid v fd = .ok t ∧ toFrames t = .ok (t', frames) ∧
      fromFrames db frames = .ok
        { header := hdr, tid := BitVec.ofNat 8 (tid % 32), ts := none, payload := canon ty v, canfd := fd } := by
  have hp : dt.payloadTy hdr.service hdr.request = ty := by
    unfold DataType.payloadTy
    rcases hsel with ⟨h, h'⟩ | ⟨h, h1, h2⟩
    · cases hs : hdr.service <;> cases hr : hdr.request <;> simp_all
    · simp [h1, h2, h]
  have := C14_end_to_end db dt hdr tid v fd hv hdt hreg (by rw [hp]; exact hwf) (by rw [hp]; exact hty)
  rwa [hp] at this

/-- C14: a received transfer carries the timestamp and the transfer ID of its first frame, the header its identifier
stands for (with the type ID of the registered type), and it counts as CAN FD iff one of its frames does. -/
theorem C14_received_attributes (db : Registry) (f : Frame) (fs : List Frame) (t : InTransfer)
    (h : fromFrames db (f :: fs) = .ok t) :
    t.ts = f.ts ∧ t.tid.toNat = f.tail.toNat % 32 ∧ (t.canfd = true ↔ ∃ g ∈ f :: fs, g.canfd = true) ∧
    ∃ dt, db (decodeId f.id).dtid (decodeId f.id).service = some dt ∧
      t.header = { decodeId f.id with dtid := dt.dtid } := by
  have hwf := (C17_from_frames db _ t h).2 0 (by simp)
  simp only [fromFrames, bind, Except.bind] at h
  cases hv : validateFrames (f :: fs) with
  | error e => rw [hv] at h; simp at h
  | ok tid =>
    rw [hv] at h
    simp only at h
    split at h
    · simp at h
    · rename_i dt hdt
      split at h
      · simp at h
      · split at h
        · simp at h
        · simp only [pure, Except.pure, Except.ok.injEq] at h
          subst h
          refine ⟨rfl, hwf.2.1.symm, ?_, dt, hdt, rfl⟩
          simp only [List.any_eq_true]

/-- A concrete case for C13-C16: a 10-byte payload sent as a service request gives two frames. -/
example : ∃ t', toFrames ⟨{ prio := 30, source := 5, dest := some 42, service := true, request := true, dtid := 1 }, 37,
    [1#8, 2#8, 3#8, 4#8, 5#8, 6#8, 7#8, 8#8, 9#8, 10#8], 0xBEEF#16, false⟩ =
    .ok (t', [{ id := 0x1E01AA85, bytes := [0xD3#8, 0x62#8, 1#8, 2#8, 3#8, 4#8, 5#8, 0x85#8] },
      { id := 0x1E01AA85, bytes := [6#8, 7#8, 8#8, 9#8, 10#8, 0x65#8] }]) := by
  rw [toFrames_of_id _ 0x1E01AA85 (by rfl), frameLoop, if_neg (by decide +kernel), frameLoop, if_pos (by decide +kernel)]
  exact ⟨⟨{ prio := 30, source := 5, dest := some 42, service := true, request := true, dtid := 1 }, 37,
    [1#8, 2#8, 3#8, 4#8, 5#8, 6#8, 7#8, 8#8, 9#8, 10#8], 0xBEEF#16, false⟩, by decide +kernel⟩

end Dronecan
