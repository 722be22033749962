import Verif.Model.FileWire
import Verif.Props.FileServer
import Verif.Props.TextField
import Verif.Props.EndToEnd
import Verif.Props.Rpc

/-!
# Reading files over the bus (C125)
-/

namespace Dronecan
namespace FileWire
open Files TextField PyM

/-! ## Specification -/

/-- A request to read: the offset and the text of the path. -/
def AsksRead (d : Shape) (off : Nat) (text : List Nat) (v : Val) : Prop := ∃ a b o items,
  v = .comp a [.prim o, .comp b [.arr items]] ∧ getInt ⟨.unsigned, 40, d.offsetTrunc⟩ o = some (off : Int) ∧
    TextField.decode ⟨.unsigned, 8, d.pathTrunc⟩ true items = .ok text

/-- A response to it: the error code and the bytes. -/
def TellsRead (d : Shape) (error : Int) (bytes : List Byte) (v : Val) : Prop := ∃ a b e items,
  v = .comp a [.comp b [.prim e], .arr items] ∧ getInt ⟨.signed, 16, d.errorTrunc⟩ e = some error ∧
    TextField.toBytes ⟨.unsigned, 8, d.dataTrunc⟩ items = .ok (bytes.map (·.toNat))

/-- A request for information. -/
def AsksInfo (d : Shape) (text : List Nat) (v : Val) : Prop := ∃ a b items,
  v = .comp a [.comp b [.arr items]] ∧ TextField.decode ⟨.unsigned, 8, d.pathTrunc⟩ true items = .ok text

/-- A response to it. -/
def TellsInfo (d : Shape) (size : Nat) (error : Int) (flags : Nat) (v : Val) : Prop := ∃ a b c s e f,
  v = .comp a [.prim s, .comp b [.prim e], .comp c [.prim f]] ∧ getInt ⟨.unsigned, 40, d.sizeTrunc⟩ s = some (size : Int) ∧
    getInt ⟨.signed, 16, d.errorTrunc⟩ e = some error ∧ getInt ⟨.unsigned, 8, d.flagsTrunc⟩ f = some (flags : Int)

/-- The path, as the file server sees it. -/
def pathOf (text : List Nat) : Str := text.map Char.ofNat

/-- The requests that a client makes: it assigns the two fields of a new request. -/
def MadeRead (d : Shape) (off : Nat) (text : List Nat) (v : Val) : Prop := ∃ o items,
  assignField (.prim ⟨.unsigned, 40, d.offsetTrunc⟩) (.prim (List.replicate 40 false)) (.int off) = (.ok (), o) ∧
    TextField.assign ⟨.unsigned, 8, d.pathTrunc⟩ true d.pathMax text [] = (.ok (), items) ∧
    v = .comp none [o, .comp none [.arr items]]

/-- Every request that arrives is answered. -/
def C125_statement : Prop := ∀ (d : Shape) (fs : FS) (s : Server) (bytes : List Byte) (tao : Bool) (v : Val) (rest : Bits),
  unpack d.readRequest (bitsFromBytes bytes) tao = .ok (v, rest) → ∃ w s', onRead d fs v s = (.ok w, s')

/-! ## Lemmas -/

theorem setInt16 (t : Bool) (x : Int) (h : x = 0 ∨ x = 32767) : ∃ b, setInt ⟨.signed, 16, t⟩ x = .ok b ∧ b.length = 16 ∧
    getInt ⟨.signed, 16, t⟩ b = some x := by
  rcases h with rfl | rfl <;> cases t <;> exact ⟨_, rfl, by decide +kernel, by decide +kernel⟩

theorem setUnsigned (n : Nat) (h1 : 1 ≤ n) (h64 : n ≤ 64) (t : Bool) (x : Nat) (hx : x < 2 ^ n) :
    ∃ b, setInt ⟨.unsigned, n, t⟩ x = .ok b ∧ b.length = n ∧ getInt ⟨.unsigned, n, t⟩ b = some (x : Int) := by
  have hr : assignRead ⟨.unsigned, n, t⟩ (x : Int) = .ok (some (x : Int)) := by
    have hx' : (x : Int) < 2 ^ n := by exact_mod_cast hx
    have h2 : (0 : Int) < 2 ^ n := by omega
    cases t with
    | false =>
      rw [C03_unsigned_saturated n (by omega)]
      congr 2
      omega
    | true =>
      rw [C03_unsigned_truncated n (by omega)]
      congr 2
      exact Int.emod_eq_of_lt (by omega) hx'
  unfold assignRead at hr
  cases hs : setInt ⟨.unsigned, n, t⟩ (x : Int) with
  | error e => rw [hs] at hr; cases hr
  | ok b =>
    rw [hs] at hr
    simp only [Except.ok.injEq] at hr
    exact ⟨b, rfl, setInt_length ⟨.unsigned, n, t⟩ h1 h64 (fun h => nomatch h) _ b hs, hr⟩

theorem failed_spec (d : Shape) : ∃ e, readFailed d = .ok (.comp none [.comp none [.prim e], .arr []]) ∧ e.length = 16 ∧
    getInt ⟨.signed, 16, d.errorTrunc⟩ e = some 32767 := by
  obtain ⟨b, h1, h2, h3⟩ := setInt16 d.errorTrunc 32767 (.inr rfl)
  refine ⟨b, ?_, h2, h3⟩
  simp [readFailed, build, access, execOp, touch, assignField, newVal, newVals, Shape.readResponse, Shape.error, h1, bind, Except.bind,
    pure, Except.pure]

theorem done_spec (d : Shape) (data : List Byte) (hm : data.length ≤ d.dataMax) : ∃ e, e.length = 16 ∧
    getInt ⟨.signed, 16, d.errorTrunc⟩ e = some 0 ∧
    build d.readResponse [([], .set 1 (.list (data.map fun b => .int b.toNat))), ([.field 0], .set 0 (.int 0))] =
      .ok (.comp none [.comp none [.prim e], .arr ((data.map (·.toNat)).map (item ⟨.unsigned, 8, d.dataTrunc⟩))]) := by
  obtain ⟨b, h1, h2, h3⟩ := setInt16 d.errorTrunc 0 (.inl rfl)
  refine ⟨b, h2, h3, ?_⟩
  have hset : arrSetAttr (valElem (.prim ⟨.unsigned, 8, d.dataTrunc⟩)) d.dataMax (data.map fun b => Elt.int (b.toNat : Int)) [] =
      (.ok (), (data.map (·.toNat)).map (item ⟨.unsigned, 8, d.dataTrunc⟩)) := by
    simp only [arrSetAttr, arrClear_run]
    rw [arrExtend_all (valElem (.prim ⟨.unsigned, 8, d.dataTrunc⟩)) d.dataMax
      (fun v => match v with | .int x => item ⟨.unsigned, 8, d.dataTrunc⟩ x.toNat | .obj v => v) _
      (by
        intro v hv
        obtain ⟨b, -, rfl⟩ := List.mem_map.1 hv
        exact item_eq _ ⟨rfl, .inl rfl⟩ b.toNat) [] (Nat.zero_le _)]
    simp [hm, List.take_of_length_le]
  simp [build, access, execOp, touch, assignField, newVal, newVals, Shape.readResponse, Shape.error, h1, hset, bind, Except.bind,
    pure, Except.pure]

theorem info_failed_spec (d : Shape) : ∃ e, infoFailed d = .ok (.comp none [.prim (List.replicate 40 false), .comp none [.prim e],
      .comp none [.prim (List.replicate 8 false)]]) ∧ getInt ⟨.signed, 16, d.errorTrunc⟩ e = some 32767 := by
  obtain ⟨b, h1, h2, h3⟩ := setInt16 d.errorTrunc 32767 (.inr rfl)
  refine ⟨b, ?_, h3⟩
  simp [infoFailed, build, access, execOp, touch, assignField, newVal, newVals, Shape.infoResponse, Shape.error, h1, bind, Except.bind,
    pure, Except.pure]

theorem toBytes_data (t : Bool) (data : List Byte) :
    TextField.toBytes ⟨.unsigned, 8, t⟩ ((data.map (·.toNat)).map (item ⟨.unsigned, 8, t⟩)) = .ok (data.map (·.toNat)) := by
  have hb : ∀ b ∈ data.map (·.toNat), b < 256 := by
    intro b hb
    obtain ⟨x, -, rfl⟩ := List.mem_map.1 hb
    exact x.isLt
  exact toBytes_items _ ⟨rfl, .inl rfl⟩ _ hb (fun b h => read_unsigned t b (hb b h))

theorem resolve_maxSize (fs : FS) (path : Str) (s : Server) (m : Nat) :
    (resolvePath fs path { s with maxSize := m }).1 = (resolvePath fs path s).1 := by
  simp only [resolvePath]
  cases s.pathMap.get? path with
  | some p => rfl
  | none =>
    cases tryResolve fs s.lookup path with
    | none => rfl
    | some out => cases out <;> rfl

theorem serves_maxSize (fs : FS) (path : Str) (s : Server) (m : Nat) (c : List Byte) :
    Serves fs { s with maxSize := m } path c ↔ Serves fs s path c := by
  unfold Serves
  rw [resolve_maxSize]

/-! ## Theorems -/

/-- It is false: a request whose path is not valid UTF-8 is not answered, since the call of the logger raises. -/
theorem C125_counterexample : ¬ C125_statement := by
  intro h
  have e : unpack ({} : Shape).readRequest (bitsFromBytes [0, 0, 0, 0, 0, 0xFF]) true =
      .ok (.comp none [.prim (List.replicate 40 false), .comp none [.arr [.prim (List.replicate 8 true)]]], []) := by decide +kernel
  obtain ⟨w, s', hw⟩ := h {} ⟨fun _ => false, fun _ => none, ['/']⟩ { lookup := [] } _ true _ _ e
  have : (onRead {} ⟨fun _ => false, fun _ => none, ['/']⟩
      (.comp none [.prim (List.replicate 40 false), .comp none [.arr [.prim (List.replicate 8 true)]]]) { lookup := [] }).1 =
      .error .valueError := by decide +kernel
  rw [hw] at this
  cases this

/-- Requests to read are answered if the path can be decoded: with the bytes of the file at the offset, as many as the response holds, or
with an error if there is no such file. -/
theorem C125_partial (d : Shape) (fs : FS) (s : Server) (off : Nat) (text : List Nat) (v : Val) (h : AsksRead d off text v) :
    (∀ content, Serves fs s (pathOf text) content → ∃ w s', onRead d fs v s = (.ok w, s') ∧
      TellsRead d 0 ((content.drop off).take d.dataMax) w ∧ hasTy d.readResponse w = true) ∧
    ((¬ ∃ content, Serves fs s (pathOf text) content) → ∃ w s', onRead d fs v s = (.ok w, s') ∧ TellsRead d 32767 [] w ∧
      hasTy d.readResponse w = true) := by
  obtain ⟨a, b, o, items, rfl, ho, ht⟩ := h
  have hp : decodePath d items = .ok (pathOf text) := by simp only [decodePath, ht, pathOf]
  constructor
  · intro content hs
    obtain ⟨data, s', hr, hd, hl, -, -⟩ := C44_read fs { s with maxSize := d.dataMax } (pathOf text) content
      ((serves_maxSize _ _ _ _ _).2 hs) off
    obtain ⟨e, he, hg, hb⟩ := done_spec d data hl
    refine ⟨.comp none [.comp none [.prim e], .arr ((data.map (·.toNat)).map (item ⟨.unsigned, 8, d.dataTrunc⟩))], s', ?_,
      ⟨none, none, e, _, rfl, hg, ?_⟩, ?_⟩
    rotate_left
    · rw [toBytes_data, hd]
    · simp only [Shape.readResponse, Shape.error, hasTy, hasTys, he, beq_self_eq_true, Bool.and_true, Bool.true_and, Bool.and_eq_true,
        List.all_eq_true, Bool.or_eq_true]
      intro x hx
      obtain ⟨y, -, rfl⟩ := List.mem_map.1 hx
      obtain ⟨z, hz⟩ := setInt_ok ⟨.unsigned, 8, d.dataTrunc⟩ ⟨rfl, .inl rfl⟩ (Int.ofNat y)
      have := setInt_length ⟨.unsigned, 8, d.dataTrunc⟩ (by show 1 ≤ 8; decide) (by show 8 ≤ 64; decide) (fun h => nomatch h) _ z hz
      simp only [item, hz, Except.toOption, Option.getD_some, hasTy]
      simpa using this
    · simp only [onRead, hp, ho]
      rw [show ((off : Int).toNat) = off from Int.toNat_natCast off, hr]
      simp only
      rw [hb]
  · intro hn
    obtain ⟨e, he, hl, hg⟩ := failed_spec d
    have hm := (C44_missing fs { s with maxSize := d.dataMax } (pathOf text)
      (fun ⟨c, hc⟩ => hn ⟨c, (serves_maxSize _ _ _ _ _).1 hc⟩) off).1
    refine ⟨.comp none [.comp none [.prim e], .arr []], (read fs (some (pathOf text)) off { s with maxSize := d.dataMax }).2, ?_,
      ⟨none, none, e, [], rfl, hg, rfl⟩, ?_⟩
    · simp only [onRead, hp, ho]
      rw [show ((off : Int).toNat) = off from Int.toNat_natCast off]
      generalize read fs (some (pathOf text)) off { s with maxSize := d.dataMax } = r at hm
      obtain ⟨r1, r2⟩ := r
      simp only at hm
      subst hm
      simp only [he]
    · simp [Shape.readResponse, Shape.error, hasTy, hasTys, hl]

/-- Requests whose path cannot be decoded are not answered, and nothing is opened. -/
theorem C125_refused (d : Shape) (fs : FS) (s : Server) (v : Val) (a b : Option Nat) (o : Bits) (items : List Val)
    (hv : v = .comp a [.prim o, .comp b [.arr items]] ) (h : ∀ text, TextField.decode ⟨.unsigned, 8, d.pathTrunc⟩ true items ≠ .ok text) :
    ∃ e, onRead d fs v s = (.error e, s) := by
  subst hv
  simp only [onRead, decodePath]
  cases ht : TextField.decode ⟨.unsigned, 8, d.pathTrunc⟩ true items with
  | ok t => exact absurd ht (h t)
  | error e => exact ⟨e, rfl⟩

/-- The exception is raised by the handler, so that it is the node's affair. -/
theorem C125_raised (d : Shape) (dt : DataType) (fs : FS) (srv : Server) (tr : InTransfer) (e : Err) (srv' : Server)
    (h : onRead d fs tr.payload srv = (.error e, srv')) (env : Env) (call : Call → PyM Node (Option Payload)) (c : Call) (s : Node)
    (hs : env.script s c = readScript d dt fs srv tr) :
    (Node.runScript env call c s).1 = .error e ∧ (Node.runScript env call c s).2.trace = s.trace ++ [.called c, .raised c] := by
  have hr : readScript d dt fs srv tr = { acts := [(.raise e, false)] } := by simp [readScript, h]
  simp [Node.runScript, hs, hr, Node.runActs, PyM.forEach, Node.exec, PyM.tryCatch, PyM.get, Node.log, PyM.raise, PyM.pure, PyM.modify]

/-- Requests for information: the length of the file, if it is less than 2^40. -/
theorem C125_info (d : Shape) (fs : FS) (s : Server) (text : List Nat) (v : Val) (h : AsksInfo d text v) :
    (∀ content, Serves fs s (pathOf text) content → content.length < 2 ^ 40 → ∃ w s', onInfo d fs v s = (.ok w, s') ∧
      TellsInfo d content.length 0 9 w) ∧
    ((¬ ∃ content, Serves fs s (pathOf text) content) → ∃ w s', onInfo d fs v s = (.ok w, s') ∧ TellsInfo d 0 32767 0 w) := by
  obtain ⟨a, b, items, rfl, ht⟩ := h
  have hp : decodePath d items = .ok (pathOf text) := by simp only [decodePath, ht, pathOf]
  constructor
  · intro content hs hlen
    have hi := C44_info fs s (pathOf text) content hs
    obtain ⟨n, n1, n2, n3⟩ := setUnsigned 40 (by decide) (by decide) d.sizeTrunc content.length hlen
    obtain ⟨e, e1, e2, e3⟩ := setInt16 d.errorTrunc 0 (.inl rfl)
    obtain ⟨f, f1, f2, f3⟩ := setUnsigned 8 (by decide) (by decide) d.flagsTrunc 9 (by decide)
    have f1' : setInt ⟨.unsigned, 8, d.flagsTrunc⟩ 9 = .ok f := f1
    refine ⟨.comp none [.prim n, .comp none [.prim e], .comp none [.prim f]], (getInfo fs (some (pathOf text)) s).2, ?_,
      ⟨_, _, _, n, e, f, rfl, n3, e3, f3⟩⟩
    simp only [onInfo, hp]
    generalize getInfo fs (some (pathOf text)) s = r at hi
    obtain ⟨r1, r2⟩ := r
    simp only at hi
    subst hi
    simp [build, access, execOp, touch, assignField, newVal, newVals, Shape.infoResponse, Shape.error, n1, e1, f1', bind, Except.bind,
      pure, Except.pure]
  · intro hn
    obtain ⟨e, he, hg⟩ := info_failed_spec d
    have hm := (C44_missing fs s (pathOf text) hn 0).2
    refine ⟨.comp none [.prim (List.replicate 40 false), .comp none [.prim e], .comp none [.prim (List.replicate 8 false)]],
      (getInfo fs (some (pathOf text)) s).2, ?_, ⟨none, none, none, _, e, _, rfl, ?_, hg, ?_⟩⟩
    · simp only [onInfo, hp]
      generalize getInfo fs (some (pathOf text)) s = r at hm
      obtain ⟨r1, r2⟩ := r
      simp only at hm
      subst hm
      simp only [he]
    · cases d.sizeTrunc <;> decide +kernel
    · cases d.flagsTrunc <;> decide +kernel

/-! ## Over the bus -/

section Bus
open Node EndToEnd Dispatch Requests Rpc Timers

/-- The text fits into the path field. -/
def Fits (text : List Nat) (m : Nat) : Prop := IsStr text ∧ ∃ bytes, Utf8.Says text bytes ∧ bytes.length ≤ m

/-- A client can make any request, and it arrives as it was made. -/
theorem C125_made (d : Shape) (off : Nat) (ho : off < 2 ^ 40) (text : List Nat) (h : Fits text d.pathMax) :
    ∃ v, MadeRead d off text v ∧ hasTy d.readRequest v = true ∧ canon d.readRequest v = v ∧ AsksRead d off text v := by
  obtain ⟨hs, bytes, hb, hm⟩ := h
  obtain ⟨items, i1, i2, i3, i4, -⟩ := C123_partial d.pathTrunc d.pathMax text bytes [] hs hb hm
  obtain ⟨o, o1, o2, o3⟩ := setUnsigned 40 (by decide) (by decide) d.offsetTrunc off ho
  have hitems : ∀ x ∈ items, hasTy (.prim ⟨.unsigned, 8, d.pathTrunc⟩) x = true := by
    intro x hx
    rw [assign_spec _ ⟨rfl, .inl rfl⟩, (Utf8.encode_spec text hs bytes).2 hb] at i1
    simp only [Prod.mk.injEq] at i1
    rw [← i1.2] at hx
    obtain ⟨b, -, rfl⟩ := List.mem_map.1 hx
    obtain ⟨z, hz⟩ := setInt_ok ⟨.unsigned, 8, d.pathTrunc⟩ ⟨rfl, .inl rfl⟩ (Int.ofNat b)
    have := setInt_length ⟨.unsigned, 8, d.pathTrunc⟩ (by show 1 ≤ 8; decide) (by show 8 ≤ 64; decide) (fun h => nomatch h) _ z hz
    simp only [item, hz, Except.toOption, Option.getD_some, hasTy]
    simpa using this
  refine ⟨.comp none [.prim o, .comp none [.arr items]], ⟨.prim o, items, by simp only [assignField, o1], i1, rfl⟩, ?_, ?_,
    ⟨_, _, o, items, rfl, o3, i2⟩⟩
  · simp only [Shape.readRequest, Shape.path, hasTy, hasTys, o2, beq_self_eq_true, Bool.and_true, Bool.true_and, Bool.and_eq_true, List.all_eq_true]
    simpa using hitems
  · simp only [Shape.readRequest, Shape.path, canon, canonFields, if_true]
    rw [List.take_of_length_le (by omega), List.map_id']

/-- A node that sent the request with this header and transfer ID, and reads these frames while it waits, calls the callback of the request with
an answer that fulfils `Q`, before its main loop goes on (the conditions are those of C93). -/
def Brings (dt : DataType) (v : Nat) (frames : List Frame) (hdr : Header) (tid : Nat) (Q : InTransfer → Prop) : Prop :=
  ∀ (env : Env) (ops : List Node.Op) (t : Int) (iv : Option Int) (ce fd : Bool) (it : Nat × Bool) (pre post : List Ev) (raw first : RawFrame)
    (rest : List RawFrame) (old : List Frame) (r : Nat),
    Public ops → env.db dt.dtid true = some dt → HooksSettle env →
    (history env ops (some v) t iv ce fd it).any isRespRaise = false → NoClash (history env ops (some v) t iv ce fd it) →
    history env ops (some v) t iv ce fd it = pre ++ .read (some raw) :: post → raw.extended = true → Arrive frames (first :: rest) →
    ofKey raw.toFrame.key (framesIn (netLog pre) ++ [raw.toFrame]) = old ++ (first :: rest).map RawFrame.toFrame →
    Sent pre r hdr tid → calls pre r = 0 →
    ∃ m mid post' answer, mid.any loopEv = false ∧ Q answer ∧ post = .received m answer :: mid ++ .called (.response r (some answer)) :: post'

theorem wf_response (d : Shape) (h : 0 < d.dataMax) : WfTy d.readResponse = true := by
  simp [Shape.readResponse, Shape.error, WfTy, WfTys, h]

theorem wf_request (d : Shape) (h : 0 < d.pathMax) : WfTy d.readRequest = true := by
  simp [Shape.readRequest, Shape.path, WfTy, WfTys, h]

theorem response_canon (d : Shape) (bytes : List Byte) (hl : bytes.length ≤ d.dataMax) (error : Int) (w : Val)
    (h : TellsRead d error bytes w) (hty : hasTy d.readResponse w = true) : TellsRead d error bytes (canon d.readResponse w) := by
  obtain ⟨a, b, e, items, rfl, h1, h2⟩ := h
  have key : ∀ items : List Val, (∀ x ∈ items, hasTy (.prim ⟨.unsigned, 8, d.dataTrunc⟩) x = true) →
      (numbers ⟨.unsigned, 8, d.dataTrunc⟩ items).length = items.length := by
    intro items
    induction items with
    | nil => intro _; rfl
    | cons x items ih =>
      intro hi
      have hx := hi x List.mem_cons_self
      cases x with
      | prim b =>
        simp only [hasTy] at hx
        have hb : b ≠ [] := by rintro rfl; simp at hx
        have : ∃ y, getInt ⟨.unsigned, 8, d.dataTrunc⟩ b = some y := by
          simp only [getInt, if_neg hb]
          exact ⟨_, rfl⟩
        obtain ⟨y, hy⟩ := this
        have := ih (fun z hz => hi z (List.mem_cons_of_mem _ hz))
        simp only [numbers, List.filterMap_cons, hy, List.length_cons]
        unfold numbers at this
        omega
      | void => simp [hasTy] at hx
      | arr _ => simp [hasTy] at hx
      | comp _ _ => simp [hasTy] at hx
  have hn : ∀ (items : List Val) (ns : List Nat), (∀ x ∈ items, hasTy (.prim ⟨.unsigned, 8, d.dataTrunc⟩) x = true) →
      TextField.toBytes ⟨.unsigned, 8, d.dataTrunc⟩ items = .ok ns → items.length = ns.length := by
    intro items ns hi h
    unfold TextField.toBytes at h
    split at h
    · injection h with h
      subst h
      rw [List.length_map, key items hi]
    · cases h
  have hi : ∀ x ∈ items, hasTy (.prim ⟨.unsigned, 8, d.dataTrunc⟩) x = true := by
    simp only [Shape.readResponse, Shape.error, hasTy, hasTys, Bool.and_true, Bool.and_eq_true, List.all_eq_true] at hty
    intro x hx
    exact hty.1.2 x hx
  have hlen := hn items _ hi h2
  rw [List.length_map] at hlen
  refine ⟨none, none, e, items, ?_, h1, h2⟩
  simp only [Shape.readResponse, Shape.error, canon, canonFields, if_true]
  rw [List.take_of_length_le (by omega), List.map_id']

/-- From the request of the client to its callback. The client, node `v`, asks node `w` for the bytes of a path at an offset, and the request
returns: then frames were handed to the driver that every node understands. If a file server is the handler of the request at node `w` and the
answer is sent: then frames were handed to the driver that bring the bytes of the file at that offset to the callback of the client. -/
theorem C125_exchange (d : Shape) (hd1 : 0 < d.pathMax) (hd2 : 0 < d.dataMax) (dt : DataType) (hid : dt.dtid < 256)
    (hreq : dt.msg = d.readRequest) (hresp : dt.resp = d.readResponse) (off : Nat) (text : List Nat) (ask : Val)
    (hty : hasTy d.readRequest ask = true) (hcan : canon d.readRequest ask = ask) (hask : AsksRead d off text ask)
    (fs : FS) (srv : Server) (content : List Byte) (hserves : Serves fs srv (pathOf text) content)
    (cenv : Env) (v w : Nat) (hv : v + 1 < 128) (hw : 1 ≤ w) (hw' : w < 128) (prio : Option Nat) (hp : effPrio prio < 32)
    (timeout : Option Int) (canfd : Option Bool) (c c' : Node) (hc : c.nodeId = some (v + 1))
    (hsend : request cenv (hookCall cenv) ⟨dt, ask⟩ w prio timeout canfd c = (.ok (), c')) :
    ∃ mid frames e, c'.trace = c.trace ++ mid ++ frames.map (.frame c.nextNum) ++ [e] ∧
      ∃ (hdr : Header) (tid : Nat) (tr : Option Int → InTransfer), OnAir dt true (canfd.getD c.sendCanfd) frames tr ∧
        (∀ ts, (tr ts).header = hdr ∧ (tr ts).tid.toNat = tid) ∧
        ∀ (ts : Option Int) (senv : Env) (h : HEntry) (s s' : Node), h.builtin = false → isService h.type = true → h.sniff = false →
          (∀ s tr, senv.script s (.handler h.uid tr) = readScript d dt fs srv tr) → s.nodeId = some w →
          callHandler senv h (tr ts) s = (.ok (), s') →
          ∃ mid' frames', s'.trace = s.trace ++ mid' ++ frames'.map (.frame s.nextNum) ∧
            Brings dt (v + 1) frames' hdr tid (fun answer => TellsRead d 0 ((content.drop off).take d.dataMax) answer.payload) := by
  obtain ⟨mid, frames, e, ht, hair⟩ := C115_request (env := cenv) ⟨dt, ask⟩ w prio timeout canfd c c' v hc hv hw hw' hp hid
    (by simp only [DataType.payloadTy, if_true, hreq]; exact wf_request d hd1)
    (by simp only [DataType.payloadTy, if_true, hreq]; exact hty) hsend
  simp only [DataType.payloadTy, if_true, hreq, hcan] at hair
  refine ⟨mid, frames, e, ht, _, _, _, hair, fun ts => ⟨rfl, rfl⟩, ?_⟩
  intro ts senv h s s' hb hsv hsn hscript hsid hok
  obtain ⟨resp, srv', hr1, hr2, hr3⟩ := (C125_partial d fs srv off text ask hask).1 content hserves
  have hf : runScript senv (hookCall senv) (.handler h.uid (arrived
      { prio := effPrio prio, dtid := dt.dtid, source := v + 1, dest := some w, service := true, request := true }
      ((c.tids.get? (.svc dt.dtid w)).getD 0) ts ask (canfd.getD c.sendCanfd))) s =
      (.ok (some ⟨dt, resp⟩), { s with trace := s.trace ++ [.called (.handler h.uid (arrived
      { prio := effPrio prio, dtid := dt.dtid, source := v + 1, dest := some w, service := true, request := true }
      ((c.tids.get? (.svc dt.dtid w)).getD 0) ts ask (canfd.getD c.sendCanfd)))] }) := by
    simp only [runScript, PyM.bind_run, PyM.get, log, PyM.modify, hscript, readScript, arrived, hr1, runActs, PyM.forEach, PyM.pure,
      PyM.tryCatch]
  obtain ⟨mid', frames', ht', hbr⟩ := C93_round_trip (env := senv) h _ s _ s' ⟨dt, resp⟩ w (v + 1) hb hsv hsn rfl
    (by
      show (BitVec.ofNat 8 (_ % 32)).toNat < 32
      rw [BitVec.toNat_ofNat]
      omega) hf hsid (by omega) (by omega) rfl (by omega) (by omega) hp rfl hid rfl
    (by simp only [DataType.payloadTy, if_true, hresp]; exact wf_response d hd2)
    (by simp only [DataType.payloadTy, if_true, hresp]; exact hr3) hok
  refine ⟨_ :: mid', frames', by rw [ht']; simp only [List.append_assoc, List.cons_append, List.nil_append]; rfl, ?_⟩
  intro env' ops t iv ce fd it pre post raw first rest old r h1 h2 h3 h4 h5 h6 h7 h8 h9 h10 h11
  obtain ⟨m, mid2, post2, g1, g2⟩ := hbr env' ops t iv ce fd it pre post raw first rest old r h1 h2 h3 h4 h5 h6 h7 h8 h9 h10 h11
  refine ⟨m, mid2, post2, _, g1, ?_, g2⟩
  simp only [arrived, DataType.payloadTy, if_true, hresp]
  exact response_canon d _ (by simp; omega) 0 resp hr2 hr3

end Bus

/-- A client that asks for the bytes at 0, and as long as it gets as many as a response can hold, for those that follow, has the file when it gets
fewer. `tell off`: the bytes that it is told at an offset. -/
def assemble (m : Nat) (tell : Nat → List Byte) : Nat → Nat → Option (List Byte)
  | 0, _ => none
  | tries + 1, off => if (tell off).length < m then some (tell off) else (assemble m tell tries (off + m)).map (tell off ++ ·)

/-- The answers of `C125_exchange` put together are the file. -/
theorem C125_file (m : Nat) (hm : 0 < m) (content : List Byte) (tell : Nat → List Byte) (h : ∀ off ≤ content.length, tell off = (content.drop off).take m)
    (tries : Nat) (ht : content.length < m * tries) : assemble m tell tries 0 = some content := by
  have key : ∀ tries off, off ≤ content.length → content.length < off + m * tries → assemble m tell tries off = some (content.drop off) := by
    intro tries
    induction tries with
    | zero => intro off h1 h2; rw [Nat.mul_zero] at h2; omega
    | succ n ih =>
      intro off h1 h2
      rw [Nat.mul_succ] at h2
      simp only [assemble, h off h1, List.length_take, List.length_drop]
      by_cases hl : content.length - off < m
      · rw [if_pos (by omega), List.take_of_length_le (by simp; omega)]
      · rw [if_neg (by omega), ih (off + m) (by omega) (by omega), Option.map_some, ← List.drop_drop, List.take_append_drop]
  rw [key tries 0 (Nat.zero_le _) (by omega), List.drop_zero]

/-! ## The hypotheses can be met -/

/-- A file system with one file. -/
def sampleFs : FS := ⟨fun p => p = "/srv/é".toList, fun p => if p = "/srv/é".toList then some [1, 2, 3, 4, 5] else none, ['/']⟩

def sampleServer : Server := { lookup := ["/srv".toList] }

/-- Short arrays, so that the file does not fit into one response. -/
def sampleShape : Shape := { pathMax := 10, dataMax := 3 }

example : Serves sampleFs sampleServer (pathOf [0xE9]) [1, 2, 3, 4, 5] := ⟨"/srv/é".toList, by decide +kernel, by decide +kernel⟩

example : Fits [0xE9] sampleShape.pathMax :=
  ⟨by intro c hc; simp at hc; omega, [0xC3, 0xA9], .cons (a := [0xC3, 0xA9]) (b := []) (.two 0xE9 (by decide) (by decide)) .nil, by decide⟩

/-- A request for the bytes from 3. -/
def sampleAsk : Val := .comp none [.prim (formatBin 40 3), .comp none [.arr [.prim (formatBin 8 0xC3), .prim (formatBin 8 0xA9)]]]

example : AsksRead sampleShape 3 [0xE9] sampleAsk := ⟨_, _, _, _, rfl, by decide +kernel, by decide +kernel⟩

example : (onRead sampleShape sampleFs sampleAsk sampleServer).1 =
    .ok (.comp none [.comp none [.prim (List.replicate 16 false)], .arr [.prim (formatBin 8 4), .prim (formatBin 8 5)]]) := by decide +kernel

def sampleType : DataType := { dtid := 48, baseCrc := 0x1234, msg := sampleShape.readRequest, resp := sampleShape.readResponse }

/-- The environment of both nodes. -/
def sampleEnv : Env :=
  { db := fun n service => if n = 48 ∧ service = true then some sampleType else none
    script := fun _ c => match c with
      | .handler _ tr => readScript sampleShape sampleType sampleFs sampleServer tr
      | _ => {}
    statusPayload := fun _ => ⟨sampleType, .comp none []⟩
    infoPayload := fun _ => ⟨sampleType, .comp none []⟩ }

/-- Node 10 sends the request to node 20. -/
example : (Node.request sampleEnv (Node.hookCall sampleEnv) ⟨sampleType, sampleAsk⟩ 20 none none none
    (Node.init (some 10) 0 none true false (1, true))).1 = .ok () := by decide +kernel

/-- Node 20 answers it. -/
example : (Node.callHandler sampleEnv { uid := 1, type := some (48, true), sniff := false }
    (arrived { prio := 20, dtid := 48, source := 10, dest := some 20, service := true, request := true } 0 none sampleAsk false)
    (Node.init (some 20) 0 none true false (1, true))).1 = .ok () := by decide +kernel

example : assemble 3 (fun off => ([1, 2, 3, 4, 5].drop off).take 3) 2 0 = some [1, 2, 3, 4, 5] := by decide +kernel

/-- The sizes of the messages that the layouts stand for. -/
theorem C125_size (d : Shape) : minBitlen d.readRequest = 40 ∧ maxBitlen d.readRequest = 40 + bitLength d.pathMax + d.pathMax * 8 ∧
    minBitlen d.readResponse = 16 ∧ maxBitlen d.readResponse = 16 + bitLength d.dataMax + d.dataMax * 8 ∧
    minBitlen d.infoRequest = 0 ∧ maxBitlen d.infoRequest = bitLength d.pathMax + d.pathMax * 8 ∧
    minBitlen d.infoResponse = 64 ∧ maxBitlen d.infoResponse = 64 := by
  simp [Shape.readRequest, Shape.readResponse, Shape.infoRequest, Shape.infoResponse, Shape.path, Shape.error, minBitlen, minBitlens, maxBitlen,
    maxBitlens]
  omega

end FileWire
end Dronecan
