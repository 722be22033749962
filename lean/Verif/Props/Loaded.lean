import Verif.Model.Loaded
import Verif.Props.Namespaces
import Verif.Props.Normal
import Verif.Props.TypeSignature
import Verif.Props.EndToEnd

/-!
# From definition files to the bus (C130)

Two computers load their files of definitions. What one node sends with a type that its files define, a node on the other computer receives,
if the files say the same about the types.
-/

namespace Dronecan
namespace Loaded
open Parser Text Namespaces EndToEnd Node PyM Can

/-! ## Specification -/

/-- The files of two computers do not contradict each other: definitions of the same name have the same normalised text, and the same explicit
signatures, if any. Comments, spacing, constants, and the places of the files may differ. -/
def Agree (c c' : Computer) : Prop := ∀ n n' f f' d d', Parser.parse c.fs c.eval c.dirs n f = .ok d → Parser.parse c'.fs c'.eval c'.dirs n' f' = .ok d' →
  d.fullName = d'.fullName → d.sourceText = d'.sourceText ∧ d.override = d'.override

/-- Of the files, only those that define the type `d` have its data type ID. -/
def OwnId (c : Computer) (files : List String) (d : Def) : Prop :=
  ∀ f ∈ files, ∀ e, c.parse f = .ok e → e.response.isSome = d.response.isSome → e.defaultDtid = d.defaultDtid → e.fullName = d.fullName

/-- Every node with this table of types, whatever its program and history: if it reads these frames from its driver one after the other
then it receives the transfer after the last one, before it reads another frame. -/
def Arrives (db : Registry) (frames : List Frame) (tr : Option Int → InTransfer) (heard : List CANFrame) : Prop :=
  ∀ (env : Env) (ops : List Node.Op) (nid : Option Nat) (t : Int) (iv : Option Int) (ce fd : Bool) (it : Nat × Bool)
    (pre post : List Dronecan.Ev) (raw : RawFrame) (before arrivals : List RawFrame),
    Public ops → env.db = db →
    (run env ops (init nid t iv ce fd it)).trace = pre ++ .read (some raw) :: post →
    readsOf pre ++ [raw] = before ++ arrivals → arrivals.map canOf = heard →
    ∃ first ∈ arrivals, frames.head?.map sentAs = some (canOf first) ∧
      ∃ mid m post', post = mid ++ .received m (tr first.ts) :: post' ∧ readsOf mid = []

/-- The type `d` of computer `c` and the type `d'` that the table of computer `c'` has for it: the files agree, and the tables have been loaded
from files one of which defines it, with the same ID. -/
structure Shared (c c' : Computer) (d d' : Def) (tb' : Tables Def) : Prop where
  agree : Agree c c'
  agree' : Agree c' c'
  here : ∃ f, c.parse f = .ok d
  there : ∃ files tb f', c'.load files tb = .ok tb' ∧ f' ∈ files ∧ c'.parse f' = .ok d' ∧ OwnId c' files d'
  name : d.fullName = d'.fullName
  id : d.defaultDtid = d'.defaultDtid

/-- The frames are sent within the limits of CAN, and if a node with this table of types reads them, in order and with others between them, it
receives the transfer. -/
def Carried (db : Registry) (dt : DataType) (service fd : Bool) (frames : List Frame) (tr : Option Int → InTransfer) : Prop :=
  OnAir dt service fd frames tr ∧ ∀ k ∈ frames, ∀ heard, Mixed Plain some k frames heard → Arrives db frames tr heard

/-! ## Layouts -/

theorem one_wire (t : PTy) : layout.one t = t.wire := by
  induction t using PTy.rec (motive_2 := fun ts => layout.go ts = wires ts) with
  | void n => rfl
  | prim p => rfl
  | array e dy m ih => simp only [layout.one, PTy.wire, ih]
  | compound n o u ns ts ih => simp only [layout.one, PTy.wire, ih]
  | nil => rfl
  | cons t ts h1 h2 => simp only [layout.go, wires, h1, h2]

theorem go_map (ts : List PTy) : layout.go ts = ts.map PTy.wire := by
  induction ts with
  | nil => rfl
  | cons t ts ih => simp only [layout.go, ih, one_wire, List.map_cons]

theorem layout_eq (a : Attrs) : layout a = .comp a.isUnion (a.fields.map fun f => f.type.wire) := by
  simp only [layout, go_map, List.map_map]; rfl

def structName : PTy → Str
  | .compound name _ _ _ _ => name
  | _ => []

/-- Types that say the same, with structures of the same layouts and signatures. -/
theorem type_same (t : PTy) : ∀ t' : PTy, t.withStructures stub = t'.withStructures stub →
    (∀ s s', t.structure? = some s → t'.structure? = some s' → structName s = structName s' → s.wire = s'.wire ∧ s.dataTypeSignature = s'.dataTypeSignature) →
    t.wire = t'.wire ∧ t.dataTypeSignature = t'.dataTypeSignature := by
  induction t using PTy.rec (motive_2 := fun _ => True) with
  | void n =>
    intro t' h hs
    cases t' <;> simp [PTy.withStructures, stub] at h
    subst h; exact ⟨rfl, rfl⟩
  | prim p =>
    intro t' h hs
    cases t' <;> simp [PTy.withStructures, stub] at h
    subst h; exact ⟨rfl, rfl⟩
  | array e dy m ih =>
    intro t' h hs
    cases t' <;> simp [PTy.withStructures, stub] at h
    obtain ⟨h1, rfl, rfl⟩ := h
    obtain ⟨a, b⟩ := ih _ h1 (fun s s' h1 h2 => hs s s' (by simpa only [PTy.structure?] using h1) (by simpa only [PTy.structure?] using h2))
    exact ⟨by simp only [PTy.wire, a], by simp only [PTy.dataTypeSignature, b]⟩
  | compound n o u ns ts ih =>
    intro t' h hs
    cases t' <;> simp [PTy.withStructures, stub] at h
    exact hs _ _ (by simp only [PTy.structure?]) (by simp only [PTy.structure?]) h
  | nil => trivial
  | cons => trivial

theorem fields_same (l : List Field) : ∀ l' : List Field, l.map (Field.said stub) = l'.map (Field.said stub) →
    (∀ f ∈ l, ∀ f' ∈ l', ∀ s s', f.type.structure? = some s → f'.type.structure? = some s' → structName s = structName s' →
      s.wire = s'.wire ∧ s.dataTypeSignature = s'.dataTypeSignature) →
    (l.map fun f => f.type.wire) = (l'.map fun f => f.type.wire) ∧
      (l.map fun f => f.type.dataTypeSignature) = (l'.map fun f => f.type.dataTypeSignature) := by
  induction l with
  | nil =>
    intro l' h _
    cases l' with
    | nil => exact ⟨rfl, rfl⟩
    | cons => simp at h
  | cons f l ih =>
    intro l' h hs
    cases l' with
    | nil => simp at h
    | cons f' l' =>
      simp only [List.map_cons, List.cons.injEq] at h
      obtain ⟨h1, h2⟩ := h
      obtain ⟨a, b⟩ := ih l' h2 (fun g hg g' hg' => hs g (List.mem_cons_of_mem _ hg) g' (List.mem_cons_of_mem _ hg'))
      have h1 : f.type.withStructures stub = f'.type.withStructures stub := congrArg Field.type h1
      obtain ⟨x, y⟩ := type_same _ _ h1 (hs f List.mem_cons_self f' List.mem_cons_self)
      exact ⟨by simp [x, a], by simp [y, b]⟩

/-- What definitions of the same name, on computers that agree, have in common. -/
structure Same (d d' : Def) : Prop where
  body : layout d.body = layout d'.body
  kind : d.response.isSome = d'.response.isSome
  response : ∀ r r', d.response = some r → d'.response = some r' → layout r = layout r'
  signature : d.dataTypeSignature = d'.dataTypeSignature

theorem same (c c' : Computer) (ha : Agree c c') (n : Nat) : ∀ (n' : Nat) (f f' : Str) (d d' : Def),
    Parser.parse c.fs c.eval c.dirs n f = .ok d → Parser.parse c'.fs c'.eval c'.dirs n' f' = .ok d' → d.fullName = d'.fullName → Same d d' := by
  induction n with
  | zero => intro n' f f' d d' h; cases h
  | succ n ih =>
    intro n' f f' d d' h h' hn
    obtain ⟨ht, ho⟩ := ha _ _ _ _ _ _ h h' hn
    obtain ⟨-, hb, hr⟩ := C78_determines _ _ _ _ _ _ _ _ _ _ d d' h h' ht
    have nest : ∀ a a' : Attrs, (a = d.body ∨ d.response = some a) → (a' = d'.body ∨ d'.response = some a') →
        ∀ f ∈ a.fields, ∀ f' ∈ a'.fields, ∀ s s', f.type.structure? = some s → f'.type.structure? = some s' → structName s = structName s' →
          s.wire = s'.wire ∧ s.dataTypeSignature = s'.dataTypeSignature := by
      intro a a' hA hA' g hg g' hg' s s' hs hs' he
      obtain ⟨fn, m, e, hm, hp, hre, rfl, -⟩ := C81_structures _ _ _ _ _ d h a hA g hg s hs
      obtain ⟨fn', m', e', -, hp', hre', rfl, -⟩ := C81_structures _ _ _ _ _ d' h' a' hA' g' hg' s' hs'
      have : n = m := by omega
      subst this
      obtain ⟨x, -, -, y⟩ := ih m' fn fn' e e' hp hp' he
      refine ⟨?_, by rw [C86_nested e hre, C86_nested e' hre', y]⟩
      simp only [layout_eq] at x
      simp only [Def.asType, PTy.wire, wires_map, List.map_map]
      exact x
    have attrs : ∀ a a' : Attrs, (a = d.body ∨ d.response = some a) → (a' = d'.body ∨ d'.response = some a') → a.said stub = a'.said stub →
        layout a = layout a' ∧ (a.fields.map fun f => f.type.dataTypeSignature) = (a'.fields.map fun f => f.type.dataTypeSignature) := by
      intro a a' hA hA' he
      simp only [Attrs.said, Attrs.mk.injEq, true_and] at he
      obtain ⟨x, y⟩ := fields_same _ _ he.1 (nest a a' hA hA')
      exact ⟨by rw [layout_eq, layout_eq, x, he.2], y⟩
    obtain ⟨b1, b2⟩ := attrs _ _ (.inl rfl) (.inl rfl) hb
    have hd : d.dsdlSignature = d'.dsdlSignature := by simp only [Def.dsdlSignature, ht, ho]
    cases hr1 : d.response with
    | none =>
      cases hr2 : d'.response with
      | some r' => rw [hr1, hr2] at hr; cases hr
      | none =>
        refine ⟨b1, by rw [hr1, hr2], fun r r' h => (by rw [hr1] at h; cases h), ?_⟩
        simp only [Def.dataTypeSignature, hr1, hr2, hd, List.append_nil, b2]
    | some r =>
      cases hr2 : d'.response with
      | none => rw [hr1, hr2] at hr; cases hr
      | some r' =>
        rw [hr1, hr2] at hr
        obtain ⟨r1, r2⟩ := attrs r r' (.inr hr1) (.inr hr2) (by simpa using hr)
        refine ⟨b1, by rw [hr1, hr2]; rfl, ?_, ?_⟩
        · intro x x' hx hx'
          rw [hr1] at hx; rw [hr2] at hx'
          cases hx; cases hx'
          exact r1
        · simp only [Def.dataTypeSignature, hr1, hr2, hd, List.map_append, b2, r2]

/-! ## C130 -/

/-- On computers whose files agree, the definitions of a name with the same data type ID give the same type: the layouts of messages, requests and
responses, and what the CRC of transfers begins with. -/
theorem C130_same (c c' : Computer) (ha : Agree c c') (f f' : String) (d d' : Def) (h : c.parse f = .ok d) (h' : c'.parse f' = .ok d')
    (hn : d.fullName = d'.fullName) (hi : d.defaultDtid = d'.defaultDtid) : typeOf d = typeOf d' := by
  obtain ⟨s1, s2, s3, s4⟩ := same c c' ha _ _ _ _ d d' h h' hn
  have hr : responseLayout d.response = responseLayout d'.response := by
    cases hr1 : d.response with
    | none =>
      cases hr2 : d'.response with
      | none => rfl
      | some r' => rw [hr1, hr2] at s2; cases s2
    | some r =>
      cases hr2 : d'.response with
      | none => rw [hr1, hr2] at s2; cases s2
      | some r' => exact s3 r r' hr1 hr2
  simp only [typeOf, hi, s1, s4, hr]

/-- The type of a definition that the parser accepts can be serialized, and its ID can be sent. -/
theorem C130_type (c : Computer) (f : String) (d : Def) (h : c.parse f = .ok d) (dt : DataType) (ht : typeOf d = some dt) :
    d.defaultDtid = some (dt.dtid : Int) ∧ 0 < dt.dtid ∧ (dt.dtid < if d.response.isSome then 256 else 65536) ∧
      ∀ service request, WfTy (dt.payloadTy service request) = true := by
  obtain ⟨w1, w2⟩ := C75_serializable _ _ _ _ _ d h
  obtain ⟨-, -, -, hid⟩ := C75_accepted _ _ _ _ _ d h
  unfold typeOf at ht
  cases hd : d.defaultDtid with
  | none => rw [hd] at ht; cases ht
  | some i =>
    obtain ⟨i0, i1⟩ := hid i hd
    rw [hd] at ht
    simp only [Option.map_some] at ht
    by_cases h0 : i.toNat = 0
    · rw [if_pos h0] at ht; cases ht
    · rw [if_neg h0] at ht
      cases ht
      refine ⟨congrArg some (by simp only; omega), by simp only; omega, ?_, ?_⟩
      · simp only
        split <;> simp_all <;> omega
      · intro service request
        have hm : WfTy (layout d.body) = true := by rw [layout_eq]; exact w1
        have hp : WfTy (responseLayout d.response) = true := by
          cases hr : d.response with
          | none => rfl
          | some r => simp only [responseLayout, layout_eq]; exact w2 r hr
        cases service <;> cases request <;> simp only [DataType.payloadTy] <;> first | exact hm | exact hp

/-- The type that is found for the ID is that of the definition. -/
theorem C130_registered (c : Computer) (hc : Agree c c) (files : List String) (tb tb' : Tables Def) (hl : c.load files tb = .ok tb') (f : String)
    (hf : f ∈ files) (d : Def) (h : c.parse f = .ok d) (ho : OwnId c files d) (dt : DataType) (ht : typeOf d = some dt) :
    registry tb' dt.dtid d.response.isSome = some dt := by
  obtain ⟨t1, t2, -, -⟩ := C130_type c f d h dt ht
  unfold Computer.load loadDsdl at hl
  cases hp : parseNamespaces (fun f => (c.parse f).map parsedOf) files none with
  | error e => simp [hp, bind, Except.bind] at hl
  | ok ts =>
    simp only [hp, bind, Except.bind] at hl
    cases hl
    obtain ⟨hm, -⟩ := parseNamespaces_ok _ _ _ _ hp
    have hk : (parsedOf d).kind = (if d.response.isSome = true then .service else .message) := rfl
    have hmem : parsedOf d ∈ ts := by
      have : (c.parse f).map parsedOf ∈ ts.map (Except.ok (ε := Err)) := by
        rw [hm]; exact List.mem_map_of_mem hf
      obtain ⟨u, hu, he⟩ := List.mem_map.1 this
      rw [h] at he
      cases he
      exact hu
    unfold registry
    rw [foldl_register_get _ _ _ _ (by omega)]
    cases hfind : ts.reverse.find? (fun t => t.kind == (if d.response.isSome = true then Kind.service else .message) && t.defaultDtid == some dt.dtid) with
    | none =>
      rw [List.find?_eq_none] at hfind
      refine absurd ?_ (hfind (parsedOf d) (by simpa using hmem))
      simp [hk, parsedOf, t1]
    | some u =>
      have hu := List.find?_some hfind
      have hum : u ∈ ts := by simpa using List.mem_of_find?_eq_some hfind
      simp only [Bool.and_eq_true, beq_iff_eq] at hu
      have : Except.ok u ∈ files.map (fun f => (c.parse f).map parsedOf) := hm ▸ List.mem_map_of_mem hum
      obtain ⟨g, hg, hge⟩ := List.mem_map.1 this
      cases hpe : c.parse g with
      | error e => rw [hpe] at hge; cases hge
      | ok e =>
        rw [hpe] at hge
        cases hge
        have k1 : e.response.isSome = d.response.isSome := by
          have := hu.1
          simp only [parsedOf] at this
          cases h1 : e.response.isSome <;> cases h2 : d.response.isSome <;> simp [h1, h2] at this ⊢
        have hi : e.defaultDtid = d.defaultDtid := by
          have h2 := hu.2
          simp only [parsedOf] at h2
          rw [t1]
          cases he : e.defaultDtid with
          | none => rw [he] at h2; cases h2
          | some i =>
            obtain ⟨-, -, -, hid⟩ := C75_accepted _ _ _ _ _ e hpe
            have := (hid i he).1
            rw [he] at h2
            simp only [Option.map_some, Option.some.injEq] at h2
            exact congrArg some (by omega)
        have hs := C130_same c c hc g f e d hpe h (ho g hg e hpe k1 hi) hi
        rw [ht] at hs
        have hd0 : (Option.map Int.toNat e.defaultDtid) = some dt.dtid := by rw [hi, t1]; rfl
        simp only [typeOf, hd0] at hs
        rw [if_neg (by omega)] at hs
        rw [← hs]
        simp only [parsedOf, hd0, Option.getD_some]

theorem arrives {dt : DataType} {service fd : Bool} {frames : List Frame} {tr : Option Int → InTransfer} (h : OnAir dt service fd frames tr)
    (db : Registry) (hdb : db dt.dtid service = some dt) (k : Frame) (hk : k ∈ frames) (heard : List CANFrame)
    (hm : Mixed Plain some k frames heard) : Arrives db frames tr heard := by
  intro env ops nid t iv ce fd it pre post raw before arrivals hp he h1 h2 h3
  exact C115_frames h k hk heard hm env ops nid t iv ce fd it pre post raw before arrivals hp (by rw [he]; exact hdb) h1 h2 h3

theorem Shared.type {c c' : Computer} {d d' : Def} {tb' : Tables Def} (hsh : Shared c c' d d' tb') {dt : DataType} (ht : typeOf d = some dt) :
    typeOf d' = some dt ∧ registry tb' dt.dtid d.response.isSome = some dt ∧ (dt.dtid < if d.response.isSome then 256 else 65536) ∧
      (∀ service request, WfTy (dt.payloadTy service request) = true) ∧ dt.msg = layout d.body ∧ dt.msg = layout d'.body ∧
      dt.resp = responseLayout d.response ∧ dt.resp = responseLayout d'.response := by
  obtain ⟨ha, hc', ⟨f, h⟩, ⟨files, tb, f', hl, hf, h', ho⟩, hn, hi⟩ := hsh
  have he := C130_same c c' ha f f' d d' h h' hn hi
  have hk := (same c c' ha _ _ _ _ d d' h h' hn).kind
  have ht' : typeOf d' = some dt := by rw [← he, ht]
  obtain ⟨-, -, t3, t4⟩ := C130_type c f d h dt ht
  have parts : ∀ d : Def, typeOf d = some dt → dt.msg = layout d.body ∧ dt.resp = responseLayout d.response := by
    intro d ht
    unfold typeOf at ht
    split at ht
    · cases ht
    · split at ht
      · cases ht
      · cases ht
        exact ⟨rfl, rfl⟩
  exact ⟨ht', by rw [hk]; exact C130_registered c' hc' files tb tb' hl f' hf d' h' ho dt ht', t3, t4, (parts d ht).1, (parts d' ht').1,
    (parts d ht).2, (parts d' ht').2⟩

/-- Messages. Node A broadcasts a message of a type that its computer has loaded. If the files of the two computers agree and B's computer has loaded
a definition of the type, with the same ID, then B receives the message, as its own definition says. -/
theorem C130_broadcast (c c' : Computer) (d d' : Def) (tb' : Tables Def) (hsh : Shared c c' d d' tb')
    (dt : DataType) (ht : typeOf d = some dt) (hmsg : d.response = none)
    (env : Env) (val : Val) (prio : Option Nat) (canfd : Option Bool) (s s' : Node) (v : Nat) (hid : s.nodeId = some (v + 1)) (hv : v + 1 < 128)
    (hp : effPrio prio < 32) (hty : hasTy (layout d.body) val = true) (hs : Node.broadcast env (hookCall env) ⟨dt, val⟩ prio canfd s = (.ok (), s')) :
    ∃ mid frames, s'.trace = s.trace ++ mid ++ frames.map (.frame s.nextNum) ∧
      Carried (registry tb') dt false (canfd.getD s.sendCanfd) frames (fun ts =>
        arrived { prio := effPrio prio, dtid := dt.dtid, source := v + 1 } ((s.tids.get? (.msg dt.dtid)).getD 0) ts
          (canon (layout d'.body) val) (canfd.getD s.sendCanfd)) := by
  obtain ⟨-, h1, h2, h3, h4, h5, -, -⟩ := hsh.type ht
  rw [hmsg] at h1 h2
  obtain ⟨mid, frames, g1, g2⟩ := C115_broadcast (env := env) ⟨dt, val⟩ prio canfd s s' v hid hv hp h2 (h3 _ _)
    (by simp only [DataType.payloadTy, h4]; exact hty) hs
  have e : dt.payloadTy false false = layout d'.body := by simp only [DataType.payloadTy, h5]; rfl
  simp only [e] at g2
  exact ⟨mid, frames, g1, g2, fun k hk heard hm => arrives g2 _ h1 k hk heard hm⟩

/-- Requests, in the same way. -/
theorem C130_request (c c' : Computer) (d d' : Def) (tb' : Tables Def) (hsh : Shared c c' d d' tb')
    (dt : DataType) (ht : typeOf d = some dt) (hsrv : d.response.isSome = true)
    (env : Env) (val : Val) (dest : Nat) (prio : Option Nat) (timeout : Option Int) (canfd : Option Bool) (s s' : Node) (v : Nat)
    (hid : s.nodeId = some (v + 1)) (hv : v + 1 < 128) (hdest : 1 ≤ dest) (hdest' : dest < 128) (hp : effPrio prio < 32)
    (hty : hasTy (layout d.body) val = true) (hs : Node.request env (hookCall env) ⟨dt, val⟩ dest prio timeout canfd s = (.ok (), s')) :
    ∃ mid frames e, s'.trace = s.trace ++ mid ++ frames.map (.frame s.nextNum) ++ [e] ∧
      Carried (registry tb') dt true (canfd.getD s.sendCanfd) frames (fun ts =>
        arrived { prio := effPrio prio, dtid := dt.dtid, source := v + 1, dest := some dest, service := true, request := true }
          ((s.tids.get? (.svc dt.dtid dest)).getD 0) ts (canon (layout d'.body) val) (canfd.getD s.sendCanfd)) := by
  obtain ⟨-, h1, h2, h3, h4, h5, -, -⟩ := hsh.type ht
  rw [hsrv] at h1 h2
  obtain ⟨mid, frames, e, g1, g2⟩ := C115_request (env := env) ⟨dt, val⟩ dest prio timeout canfd s s' v hid hv hdest hdest' hp h2 (h3 _ _)
    (by simp only [DataType.payloadTy, h4]; exact hty) hs
  have e1 : dt.payloadTy true true = layout d'.body := by simp only [DataType.payloadTy, h5]; rfl
  simp only [e1] at g2
  exact ⟨mid, frames, e, g1, g2, fun k hk heard hm => arrives g2 _ h1 k hk heard hm⟩

/-- Responses, in the same way. -/
theorem C130_respond (c c' : Computer) (d d' : Def) (tb' : Tables Def) (hsh : Shared c c' d d' tb')
    (dt : DataType) (ht : typeOf d = some dt) (r r' : Attrs) (hr : d.response = some r) (hr' : d'.response = some r')
    (env : Env) (val : Val) (dest tid : Nat) (prio : Option Nat) (canfd : Option Bool) (s s' : Node) (v : Nat)
    (hid : s.nodeId = some (v + 1)) (hv : v + 1 < 128) (hdest : 1 ≤ dest) (hdest' : dest < 128) (hp : prio.getD 31 < 32)
    (hty : hasTy (layout r) val = true) (hs : Node.respond env (hookCall env) ⟨dt, val⟩ dest tid prio canfd s = (.ok (), s')) :
    ∃ mid frames, s'.trace = s.trace ++ mid ++ frames.map (.frame s.nextNum) ∧
      Carried (registry tb') dt true (canfd.getD s.sendCanfd) frames (fun ts =>
        arrived { prio := prio.getD 31, dtid := dt.dtid, source := v + 1, dest := some dest, service := true } tid ts
          (canon (layout r') val) (canfd.getD s.sendCanfd)) := by
  obtain ⟨-, h1, h2, h3, -, -, h4, h5⟩ := hsh.type ht
  rw [hr] at h1 h2
  have e : dt.payloadTy true false = layout r' := by simp only [DataType.payloadTy, h5, hr']; rfl
  obtain ⟨mid, frames, g1, g2⟩ := C115_respond (env := env) ⟨dt, val⟩ dest tid prio canfd s s' v hid hv hdest hdest' hp h2 (h3 _ _)
    (by simp only [DataType.payloadTy, h4, hr]; exact hty) hs
  simp only [e] at g2
  exact ⟨mid, frames, g1, g2, fun k hk heard hm => arrives g2 _ h1 k hk heard hm⟩

/-! ## Files that agree -/

theorem parse_name (fs : FS) (eval : Str → Option PyVal) (dirs : List Str) (n : Nat) (f : Str) (d : Def) (h : Parser.parse fs eval dirs n f = .ok d) :
    fs.read f ≠ none ∧ ∃ info, fileInfo dirs f = .ok info ∧ info.1 = d.fullName := by
  cases n with
  | zero => cases h
  | succ n =>
    simp only [Parser.parse] at h
    split at h
    · cases h
    · rename_i text ht
      obtain ⟨info, hi, h⟩ := bind_ok h
      refine ⟨by rw [ht]; simp, info, hi, ?_⟩
      simp only [parseSource] at h
      obtain ⟨s, hs, h⟩ := bind_ok h
      obtain ⟨hu, h⟩ := enforce_bind h
      obtain ⟨hd, h⟩ := enforce_bind h
      cases h
      rfl

/-- If no two files define the same name then the files agree with themselves. So do those of a computer with the same files, whatever the
recursion limits. -/
theorem C130_copy (c : Computer) (depth : Nat)
    (h : ∀ f f' i i', c.fs.read f ≠ none → c.fs.read f' ≠ none → fileInfo c.dirs f = .ok i → fileInfo c.dirs f' = .ok i' → i.1 = i'.1 → f = f') :
    Agree c { c with depth := depth } := by
  intro n n' f f' d d' hd hd' hn
  obtain ⟨r, i, hi, e⟩ := parse_name _ _ _ _ _ _ hd
  obtain ⟨r', i', hi', e'⟩ := parse_name _ _ _ _ _ _ hd'
  have := h f f' i i' r r' hi hi' (by rw [e, e', hn])
  subst this
  have a := C82_depth _ _ _ n (n + n') (by omega) _ _ hd
  have b := C82_depth _ _ _ n' (n + n') (by omega) _ _ hd'
  rw [a] at b
  cases b
  exact ⟨rfl, rfl⟩

/-! ## Example: the two files of `exampleFS` -/

def exampleComputer (depth : Nat) : Computer := ⟨exampleFS, exampleEval, [lit "/d/ns"], depth⟩

def exampleFiles : List String := ["/d/ns/A.uavcan", "/d/ns/sub/77.B.1.0.uavcan"]

theorem exampleFS_read (f : Str) (h : exampleFS.read f ≠ none) : f = lit "/d/ns/A.uavcan" ∨ f = lit "/d/ns/sub/77.B.1.0.uavcan" := by
  simp only [exampleFS] at h
  split at h
  · exact .inl (by assumption)
  · split at h
    · exact .inr (by assumption)
    · exact absurd rfl h

theorem example_agree (m n : Nat) : Agree (exampleComputer m) (exampleComputer n) := by
  refine C130_copy (exampleComputer m) n ?_
  intro f f' i i' hf hf' hi hi' hn
  change fileInfo [lit "/d/ns"] _ = _ at hi hi'
  have ha : (fileInfo [lit "/d/ns"] (lit "/d/ns/A.uavcan")).toOption.map (·.1) = some (lit "ns.A") := by decide +kernel
  have hb : (fileInfo [lit "/d/ns"] (lit "/d/ns/sub/77.B.1.0.uavcan")).toOption.map (·.1) = some (lit "ns.sub.B") := by decide +kernel
  rcases exampleFS_read f hf with rfl | rfl <;> rcases exampleFS_read f' hf' with rfl | rfl
  · rfl
  · rw [hi] at ha; rw [hi'] at hb
    simp only [Except.toOption, Option.map_some, Option.some.injEq] at ha hb
    rw [ha, hb] at hn
    exact absurd hn (by decide)
  · rw [hi'] at ha; rw [hi] at hb
    simp only [Except.toOption, Option.map_some, Option.some.injEq] at ha hb
    rw [ha, hb] at hn
    exact absurd hn (by decide)
  · rfl

/-- The message of the second file. -/
def exampleDef : Option Def := ((exampleComputer 5).parse "/d/ns/sub/77.B.1.0.uavcan").toOption

/-- What the second file defines. -/
theorem example_def : (exampleDef.map fun d => (d.fullName, d.defaultDtid, d.response.isSome)) = some (lit "ns.sub.B", some 77, false) := by
  decide +kernel

theorem example_other : (((exampleComputer 5).parse "/d/ns/A.uavcan").toOption.map fun d => d.defaultDtid) = some none := by decide +kernel

theorem example_load : ((exampleComputer 5).load exampleFiles {}).toOption.isSome = true := by decide +kernel

theorem example_val : (exampleDef.map fun d => ((typeOf d).map (·.dtid), hasTy (layout d.body) (.comp (some 1) [.comp none [.prim (List.replicate 8 true), .void, .arr []],
      .arr [.prim (List.replicate 16 true), .prim (List.replicate 16 false)]]))) = some (some 77, true) := by
  decide +kernel

/-- On computers with these files, a message of the second one can be sent from one to the other. -/
example : ∃ d tb' dt, Shared (exampleComputer 9) (exampleComputer 5) d d tb' ∧ typeOf d = some dt ∧ d.response = none ∧ dt.dtid = 77 ∧
    hasTy (layout d.body) (.comp (some 1) [.comp none [.prim (List.replicate 8 true), .void, .arr []],
      .arr [.prim (List.replicate 16 true), .prim (List.replicate 16 false)]]) = true := by
  have h1 := example_def
  have h2 := example_val
  have h3 := example_load
  have h4 := example_other
  cases hd : (exampleComputer 5).parse "/d/ns/sub/77.B.1.0.uavcan" with
  | error e => simp only [exampleDef, hd, Except.toOption] at h1; cases h1
  | ok d =>
    simp only [exampleDef, hd, Except.toOption, Option.map_some, Option.some.injEq, Prod.mk.injEq] at h1 h2
    cases hl : (exampleComputer 5).load exampleFiles {} with
    | error e => rw [hl] at h3; cases h3
    | ok tb' =>
      cases ht : typeOf d with
      | none => rw [ht] at h2; cases h2.1
      | some dt =>
        rw [ht] at h2
        refine ⟨d, tb', dt, ⟨example_agree _ _, example_agree _ _, ⟨_, C82_depth _ _ _ 5 9 (by omega) _ _ hd⟩,
          ⟨exampleFiles, {}, _, hl, by simp [exampleFiles], hd, ?_⟩, rfl, rfl⟩, ht, by simpa using h1.2.2, by simpa using h2.1, h2.2⟩
        intro f hf e he _ hi
        simp only [exampleFiles, List.mem_cons, List.not_mem_nil, or_false] at hf
        rcases hf with rfl | rfl
        · rw [he] at h4
          simp only [Except.toOption, Option.map_some, Option.some.injEq] at h4
          rw [h4, h1.2.1] at hi
          cases hi
        · rw [hd] at he
          cases he
          rfl

end Loaded
end Dronecan
