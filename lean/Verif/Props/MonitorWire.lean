import Verif.Model.MonitorWire
import Verif.Props.Monitor
import Verif.Props.FileWire

/-!
# Nodes find each other over the bus (C127)
-/

namespace Dronecan
namespace MonitorWire
open TextField PyM

/-! ## Specification -/

/-- The status says: uptime, health, mode, sub-mode, vendor-specific code. -/
def TellsStatus (d : Shape) (up health mode sub vendor : Nat) (v : Val) : Prop := ∃ a u h m s c,
  v = .comp a [.prim u, .prim h, .prim m, .prim s, .prim c] ∧ getInt ⟨.unsigned, 32, d.trunc 0⟩ u = some (up : Int) ∧
    getInt ⟨.unsigned, 2, d.trunc 1⟩ h = some (health : Int) ∧ getInt ⟨.unsigned, 3, d.trunc 2⟩ m = some (mode : Int) ∧
    getInt ⟨.unsigned, 3, d.trunc 3⟩ s = some (sub : Int) ∧ getInt ⟨.unsigned, 16, d.trunc 4⟩ c = some (vendor : Int)

/-- The node info says: this status, this unique ID, this name. -/
def TellsInfo (d : Shape) (status : Val → Prop) (uid name : List Byte) (v : Val) : Prop := ∃ a st sw b h1 h2 items coa ns,
  v = .comp a [st, sw, .comp b [h1, h2, .arr items, coa], .arr ns] ∧ status st ∧
    toBytes ⟨.unsigned, 8, d.trunc 12⟩ items = .ok (uid.map (·.toNat)) ∧ toBytes ⟨.unsigned, 8, d.trunc 14⟩ ns = .ok (name.map (·.toNat))

/-- A number of seconds is nearest to a time. -/
def Nearest (t : Int) (n : Nat) : Prop := (2 * n - 1) * 1000000 ≤ 2 * t ∧ 2 * t < (2 * n + 1) * 1000000

/-- The numbers that the application of the node has assigned are those of the definitions. -/
structure Proper (x : Self) (health mode vendor : Nat) : Prop where
  health : x.health = health ∧ health < 4
  mode : x.mode = mode ∧ mode < 8
  vendor : x.vendor = vendor ∧ vendor < 65536

/-- The time can be told: the clock does not run backwards, and 2^32 seconds have not passed. -/
def Timely (x : Self) (now : Int) : Prop := x.start ≤ now ∧ now - x.start + 500000 < 2 ^ 32 * 1000000

/-- The monitor is to ask: the node is not known, or its info is not, or it has restarted (`up`: the uptime that it tells); then it was not
asked in the half second before, nor ten times. -/
def Due (m : Monitor.Mon) (nid : Nat) (ts : Int) (up : Nat) : Prop :=
  500000 < ts ∧ ∀ e, m.registry.get? nid = some e → e.requestedAt + 500000 < ts ∧
    ((e.info = none ∧ 0 < e.retries) ∨ ∃ u, e.uptime = some u ∧ up < u)

/-! ## Lemmas -/

theorem wf_status (d : Shape) : WfTy d.status = true := by simp [Shape.status, WfTy, WfTys]

theorem wf_response (d : Shape) (h1 : 0 < d.coaMax) (h2 : 0 < d.nameMax) : WfTy d.response = true := by
  simp [Shape.response, Shape.status, Shape.software, Shape.hardware, WfTy, WfTys, h1, h2]

theorem nearest (x : Self) (now : Int) (h : Timely x now) :
    ∃ n : Nat, uptime x now = n ∧ n < 2 ^ 32 ∧ Nearest (now - x.start) n := by
  obtain ⟨h1, h2⟩ := h
  refine ⟨(uptime x now).toNat, ?_, ?_, ?_⟩ <;> simp only [uptime, Nearest, sec] <;> omega

theorem zeros (n : Nat) (h : 0 < n) (t : Bool) : getInt ⟨.unsigned, n, t⟩ (List.replicate n false) = some ((0 : Nat) : Int) := by
  have hne : List.replicate n false ≠ [] := by cases n <;> simp_all [List.replicate_succ]
  have hz : ∀ n, natOfBits (List.replicate n false) = 0 := by
    intro n
    induction n with
    | zero => rfl
    | succ n ih => rw [List.replicate_succ, natOfBits_cons, ih]; simp
  simp only [getInt, if_neg hne, hz]

theorem status_eq (d : Shape) (x : Self) (now : Int) (health mode vendor : Nat) (hp : Proper x health mode vendor) (ht : Timely x now) :
    ∃ v up, statusMessage d x now = .ok v ∧ hasTy d.status v = true ∧ canon d.status v = v ∧ Nearest (now - x.start) up ∧
      TellsStatus d up health mode 0 vendor v := by
  obtain ⟨n, n1, n2, n3⟩ := nearest x now ht
  obtain ⟨u, u1, u2, u3⟩ := FileWire.setUnsigned 32 (by decide) (by decide) (d.trunc 0) n n2
  obtain ⟨h, h1, h2, h3⟩ := FileWire.setUnsigned 2 (by decide) (by decide) (d.trunc 1) health hp.health.2
  obtain ⟨m, m1, m2, m3⟩ := FileWire.setUnsigned 3 (by decide) (by decide) (d.trunc 2) mode hp.mode.2
  obtain ⟨c, c1, c2, c3⟩ := FileWire.setUnsigned 16 (by decide) (by decide) (d.trunc 4) vendor hp.vendor.2
  refine ⟨.comp none [.prim u, .prim h, .prim m, .prim (List.replicate 3 false), .prim c], n, ?_, ?_, ?_, n3,
    none, u, h, m, _, c, rfl, u3, h3, m3, zeros 3 (by decide) _, c3⟩
  · simp [statusMessage, FileWire.build, fill, access, execOp, touch, assignField, newVal, newVals, Shape.status, n1, hp.health.1, hp.mode.1,
      hp.vendor.1, u1, h1, m1, c1, bind, Except.bind, pure, Except.pure]
  · simp [Shape.status, hasTy, hasTys, u2, h2, m2, c2]
  · simp [Shape.status, canon, canonFields]

theorem info_eq (d : Shape) (x : Self) (now : Int) (health mode vendor : Nat) (hp : Proper x health mode vendor) (ht : Timely x now)
    (uid name : List Byte) (hty : hasTy d.response x.info = true) (hc : canon d.response x.info = x.info)
    (hi : TellsInfo d (fun _ => True) uid name x.info) :
    ∃ v up sub, infoMessage d x now = .ok v ∧ hasTy d.response v = true ∧ canon d.response v = v ∧ Nearest (now - x.start) up ∧
      TellsInfo d (TellsStatus d up health mode sub vendor) uid name v := by
  obtain ⟨a, st, sw, b, g1, g2, items, coa, ns, hv, -, hi1, hi2⟩ := hi
  rw [hv] at hty hc
  obtain ⟨n, n1, n2, n3⟩ := nearest x now ht
  obtain ⟨u, u1, u2, u3⟩ := FileWire.setUnsigned 32 (by decide) (by decide) (d.trunc 0) n n2
  obtain ⟨h, h1, h2, h3⟩ := FileWire.setUnsigned 2 (by decide) (by decide) (d.trunc 1) health hp.health.2
  obtain ⟨m, m1, m2, m3⟩ := FileWire.setUnsigned 3 (by decide) (by decide) (d.trunc 2) mode hp.mode.2
  obtain ⟨c, c1, c2, c3⟩ := FileWire.setUnsigned 16 (by decide) (by decide) (d.trunc 4) vendor hp.vendor.2
  simp only [Shape.response, hasTy, hasTys, Bool.and_eq_true] at hty
  obtain ⟨⟨hst, hrest⟩, hact⟩ := hty
  simp only [Shape.response, canon, canonFields, Val.comp.injEq, List.cons.injEq] at hc
  obtain ⟨ha, hcs, hcr⟩ := hc
  have hshape : ∃ a' u0 h0 m0 s0 c0, st = .comp a' [.prim u0, .prim h0, .prim m0, .prim s0, .prim c0] ∧ s0.length = 3 ∧ a' = none := by
    cases st with
    | comp a' vs =>
      simp only [Shape.status, canon, Val.comp.injEq] at hcs
      match vs with
      | [.prim u0, .prim h0, .prim m0, .prim s0, .prim c0] =>
        simp [Shape.status, hasTy, hasTys] at hst
        exact ⟨a', u0, h0, m0, s0, c0, rfl, hst.1.2.2.2.1, hcs.1.symm⟩
      | [] | [_] | [_, _] | [_, _, _] | [_, _, _, _] | _ :: _ :: _ :: _ :: _ :: _ :: _ => simp [Shape.status, hasTy, hasTys] at hst
      | [.void, _, _, _, _] | [.arr _, _, _, _, _] | [.comp _ _, _, _, _, _] => simp [Shape.status, hasTy, hasTys] at hst
      | [_, .void, _, _, _] | [_, .arr _, _, _, _] | [_, .comp _ _, _, _, _] => simp [Shape.status, hasTy, hasTys] at hst
      | [_, _, .void, _, _] | [_, _, .arr _, _, _] | [_, _, .comp _ _, _, _] => simp [Shape.status, hasTy, hasTys] at hst
      | [_, _, _, .void, _] | [_, _, _, .arr _, _] | [_, _, _, .comp _ _, _] => simp [Shape.status, hasTy, hasTys] at hst
      | [_, _, _, _, .void] | [_, _, _, _, .arr _] | [_, _, _, _, .comp _ _] => simp [Shape.status, hasTy, hasTys] at hst
    | void => simp [Shape.status, hasTy] at hst
    | prim _ => simp [Shape.status, hasTy] at hst
    | arr _ => simp [Shape.status, hasTy] at hst
  obtain ⟨a', u0, h0, m0, s0, c0, rfl, hs0, rfl⟩ := hshape
  have hne : s0 ≠ [] := by rintro rfl; simp at hs0
  have hsub : getInt ⟨.unsigned, 3, d.trunc 3⟩ s0 = some (natOfBits s0 : Int) := by simp only [getInt, if_neg hne]
  refine ⟨.comp a [.comp none [.prim u, .prim h, .prim m, .prim s0, .prim c], sw, .comp b [g1, g2, .arr items, coa], .arr ns], n, natOfBits s0,
    ?_, ?_, ?_, n3, a, _, sw, b, g1, g2, items, coa, ns, rfl, ⟨none, u, h, m, s0, c, rfl, u3, h3, m3, hsub, c3⟩, hi1, hi2⟩
  · simp [infoMessage, fill, hv, access, execOp, touch, assignField, Shape.response, Shape.status, n1, hp.health.1, hp.mode.1,
      hp.vendor.1, u1, h1, m1, c1, bind, Except.bind, pure, Except.pure]
  · simp only [Shape.response, hasTy, hasTys, Bool.and_eq_true]
    refine ⟨⟨?_, hrest⟩, hact⟩
    simp [Shape.status, hasTy, hasTys, u2, h2, m2, c2, hs0]
  · simp only [Shape.response, canon, canonFields, Val.comp.injEq, List.cons.injEq]
    refine ⟨ha, ?_, hcr⟩
    simp [Shape.status, canon, canonFields]

/-- The monitor as it is called by the node: its requests do not raise within it. -/
abbrev calm (env : Monitor.MEnv) : Monitor.MEnv := { env with requestRaises := fun _ => none }

theorem heardStatus_eq (d : Shape) (tr : InTransfer) (up health mode sub vendor : Nat) (h : TellsStatus d up health mode sub vendor tr.payload) :
    heardStatus d tr = .ok { src := tr.header.source, ts := tr.ts.getD 0, uptime := up } := by
  obtain ⟨a, u, h', m, s, c, hv, hu, -⟩ := h
  simp [heardStatus, hv, hu]

theorem heardInfo_eq (d : Shape) (tr : InTransfer) (up health mode sub vendor : Nat) (uid name : List Byte)
    (h : TellsInfo d (TellsStatus d up health mode sub vendor) uid name tr.payload) :
    (heardInfo d tr).src = tr.header.source ∧ (heardInfo d tr).ts = tr.ts.getD 0 ∧ (heardInfo d tr).body = some (up, uid) ∧
      ((heardInfo d tr).nameOk = true ↔ ∃ text, Utf8.Says text (name.map (·.toNat))) := by
  obtain ⟨a, st, sw, b, h1, h2, items, coa, ns, hv, ⟨a', u, h', m, s, c, rfl, hu, -⟩, hi, hn⟩ := h
  refine ⟨rfl, rfl, ?_, ?_⟩
  · simp [heardInfo, hv, hu, hi, Function.comp_def]
  · cases hc : Utf8.decode (name.map (·.toNat)) with
    | none =>
      have hd : decode ⟨.unsigned, 8, d.trunc 14⟩ true ns = .error .valueError := by simp [decode, stringLike, hn, hc]
      simp only [heardInfo, hv, hd, Bool.false_eq_true, false_iff]
      rintro ⟨text, ht⟩
      rw [(Utf8.decode_spec _ _).2 ht] at hc
      cases hc
    | some text =>
      have hd : decode ⟨.unsigned, 8, d.trunc 14⟩ true ns = .ok text := by simp [decode, stringLike, hn, hc]
      simp only [heardInfo, hv, hd, true_iff]
      exact ⟨text, (Utf8.decode_spec _ _).1 hc⟩

theorem callHandlers_ok (env : Monitor.MEnv) (hn : Monitor.NoRaise env) (kind : Monitor.Kind) (e : Monitor.Entry) (m : Monitor.Mon) :
    (Monitor.callHandlers env kind e m).1 = .ok () := by
  have hn' : ∀ cb tr, env.raises cb tr = none := hn
  simp only [Monitor.callHandlers, PyM.bind_run, PyM.get]
  generalize m.callbacks = cbs
  induction cbs generalizing m with
  | nil => rfl
  | cons cb cbs ih =>
    simp only [PyM.forEach, PyM.bind_run, Monitor.callOne, Monitor.log, PyM.modify, PyM.get, hn', PyM.pure]
    exact ih _

/-! ## The monitor -/

/-- A status message that arrives: the monitor shows the node with the uptime that it told, and returns. -/
theorem C127_heard (d : Shape) (env : Monitor.MEnv) (hn : Monitor.NoRaise env) (m : Monitor.Mon) (hok : m.registry.Ok) (anonymous : Bool)
    (tr : InTransfer) (up health mode sub vendor : Nat) (h : TellsStatus d up health mode sub vendor tr.payload) :
    ∃ m', onStatus d env anonymous tr m = (.ok (), m') ∧ m'.registry.Ok ∧ ∃ e, m'.registry.get? tr.header.source = some e ∧ e.uptime = some up ∧
      e.nodeId = tr.header.source ∧ e.ts = tr.ts.getD 0 := by
  simp only [onStatus, heardStatus_eq d tr up health mode sub vendor h]
  have hn' : Monitor.NoRaise (calm env) := hn
  have hr : (Monitor.onNodeStatus (calm env) { src := tr.header.source, ts := tr.ts.getD 0, uptime := up } anonymous m).1 = .ok () := by
    rcases Monitor.entryFor_spec (calm env) tr.header.source m hok with ⟨err, s1, h1, h2⟩ | ⟨e0, new, s1, evs1, h1, h2, h3⟩
    · exact absurd hn' h2.1
    · simp only [Monitor.onNodeStatus, PyM.bind_run, h1, Monitor.store, PyM.modify]
      have key : ∀ (e : Monitor.Entry) (s : Monitor.Mon), (Monitor.askInfo (calm env) anonymous tr.header.source e s).1 = .ok () := by
        intro e s
        simp only [Monitor.askInfo]
        by_cases hd : (!e.discovered && !anonymous) = true
        · rw [if_pos hd]
          by_cases ht : e.ts - e.requestedAt > Monitor.minRetryInterval
          · rw [if_pos ht]
            have h0 : e.retries ≠ 0 := by
              intro h0
              simp [Monitor.Entry.discovered, h0] at hd
            simp only [Monitor.store, PyM.bind_run, PyM.modify, if_neg h0, Monitor.log, PyM.get, PyM.pure]
          · rw [if_neg ht]; rfl
        · rw [if_neg hd]; rfl
      cases new with
      | false => simp only [Bool.false_eq_true, if_false, PyM.pure]; exact key _ _
      | true =>
        simp only [if_true]
        have hc : ∀ e s, (Monitor.callHandlers (calm env) .new e s).1 = .ok () := fun e s => callHandlers_ok (calm env) hn' .new e s
        generalize hx : Monitor.callHandlers (calm env) .new _ _ = r
        have hc : r.1 = .ok () := by rw [← hx]; exact hc _ _
        obtain ⟨r, s2⟩ := r
        simp only at hc
        subst hc
        exact key _ _
  have hs := Monitor.status_spec (calm env) { src := tr.header.source, ts := tr.ts.getD 0, uptime := up } anonymous m hok
  change ∃ m', Monitor.onNodeStatus (calm env) _ anonymous m = (.ok (), m') ∧ _
  generalize Monitor.onNodeStatus (calm env) _ anonymous m = x at hr hs ⊢
  obtain ⟨r, m'⟩ := x
  simp only at hr hs
  subst hr
  refine ⟨m', rfl, ?_⟩
  rcases hs with hg | ⟨e0, new, evs1, evs2, rs, e2, hf, hg, -, -, -, -, he⟩
  · exact absurd hn' hg.1
  · obtain ⟨p1, p2, p3, p4, p5, p6, -⟩ := Monitor.updateFromStatus_parts e0 { src := tr.header.source, ts := tr.ts.getD 0, uptime := up }
    refine ⟨hf.ok, e2, hg, ?_⟩
    rcases he with ⟨-, rfl, -⟩ | ⟨-, -, rfl⟩ <;> exact ⟨by simpa using p4, by simpa using p2, by simpa using p3⟩

/-- An answer that arrives: the monitor shows the node with its unique ID and the uptime that it told; it counts as discovered. Every update
callback is told, if the name is valid UTF-8. -/
theorem C127_seen (d : Shape) (env : Monitor.MEnv) (hn : Monitor.NoRaise env) (m : Monitor.Mon) (hok : m.registry.Ok) (tr : InTransfer)
    (up health mode sub vendor : Nat) (uid name : List Byte) (h : TellsInfo d (TellsStatus d up health mode sub vendor) uid name tr.payload) :
    ∃ e, (onInfo d env (some tr) m).2.registry.get? tr.header.source = some e ∧ e.uptime = some up ∧ e.info = some uid ∧
      e.nodeId = tr.header.source ∧ e.ts = tr.ts.getD 0 ∧ e.discovered = true ∧ (onInfo d env (some tr) m).2.registry.Ok ∧
      ((∃ text, Utf8.Says text (name.map (·.toNat))) →
        ∀ cb ∈ m.callbacks, .called cb .infoUpdate e ∈ (onInfo d env (some tr) m).2.trace.drop m.trace.length) := by
  obtain ⟨h1, h2, h3, h4⟩ := heardInfo_eq d tr up health mode sub vendor uid name h
  rcases Monitor.info_spec env (heardInfo d tr) m hok with hg | ⟨e0, new, evs1, evs2, hf, hg, ht, -, -, h5⟩
  · exact absurd hn hg.1
  · rw [h1] at hg hf
    refine ⟨_, hg, ?_⟩
    have e : Monitor.afterInfo e0 (heardInfo d tr) = { e0.updateFromInfo1 (heardInfo d tr) with uptime := some up, info := some uid } := by
      simp only [Monitor.afterInfo, h3]
    rw [e]
    refine ⟨rfl, rfl, h1, h2, rfl, hf.ok, ?_⟩
    intro hu cb hcb
    have h5 := h5 (by rw [h3]; simp) (h4.2 hu) hn
    simp only [onInfo, ht, List.drop_left, h5, e]
    exact List.mem_append_right _ (List.mem_map.2 ⟨cb, hcb, rfl⟩)

/-- If the monitor is to ask, it asks once. -/
theorem asks_once (d : Shape) (env : Monitor.MEnv) (hn : Monitor.NoRaise env) (m : Monitor.Mon) (hok : m.registry.Ok)
    (tr : InTransfer) (up health mode sub vendor : Nat) (h : TellsStatus d up health mode sub vendor tr.payload)
    (hdue : Due m tr.header.source (tr.ts.getD 0) up) (dt : DataType) :
    requests dt ((onStatus d env false tr m).2.trace.drop m.trace.length) =
      [(.request ⟨dt, newVal request⟩ tr.header.source (some 30) none none, false)] := by
  simp only [onStatus, heardStatus_eq d tr up health mode sub vendor h]
  have hn' : Monitor.NoRaise (calm env) := hn
  have hs := Monitor.status_spec (calm env) { src := tr.header.source, ts := tr.ts.getD 0, uptime := up } false m hok
  change requests dt ((Monitor.onNodeStatus (calm env) _ false m).2.trace.drop m.trace.length) = _
  generalize Monitor.onNodeStatus (calm env) _ false m = x at hs ⊢
  obtain ⟨r, m'⟩ := x
  simp only at hs ⊢
  have none_of : ∀ (k : Monitor.Kind) (e : Monitor.Entry) (l : List Monitor.MEv), (∀ x ∈ l, ∃ cb, x = .called cb k e) → requests dt l = [] := by
    intro k e l
    induction l with
    | nil => intro _; rfl
    | cons x l ih =>
      intro hl
      obtain ⟨cb, rfl⟩ := hl x List.mem_cons_self
      have := ih (fun y hy => hl y (List.mem_cons_of_mem _ hy))
      unfold requests at this ⊢
      rw [List.filterMap_cons]
      exact this
  rcases hs with hg | ⟨e0, new, evs1, evs2, rs, e2, hf, hg, ht, -, h2, -, he⟩
  · exact absurd hn' hg.1
  · have h1 : requests dt evs1 = [] := by
      cases new with
      | false => rw [(hf.old rfl).2.2.2]; rfl
      | true =>
        rcases (hf.fresh rfl).2.2 with ⟨-, h0⟩ | ⟨e, -, -, h0, -⟩
        · rw [h0]; rfl
        · exact none_of _ _ _ h0
    have h2 : requests dt evs2 = [] := none_of _ _ _ h2
    have hrs : rs = [.request e0.serial tr.header.source (tr.ts.getD 0)] := by
      rcases he with ⟨-, rfl, ha⟩ | ⟨hr, -⟩
      · exfalso
        have ha := ha hn'
        obtain ⟨hts, hreg⟩ := hdue
        obtain ⟨p1, p2, p3, p4, p5, p6, p7⟩ := Monitor.updateFromStatus_parts e0 { src := tr.header.source, ts := tr.ts.getD 0, uptime := up }
        simp only [Monitor.asks, p3, p5, Monitor.minRetryInterval, Bool.not_false, Bool.and_true] at ha
        cases new with
        | true =>
          have e1 := (hf.fresh rfl).1
          subst e1
          have hd : decide (tr.ts.getD 0 - 0 > 500000) = true := by rw [decide_eq_true_eq]; omega
          rw [hd] at ha
          simp [Monitor.Entry.discovered, Monitor.Entry.updateFromStatus, Monitor.maxRetries] at ha
        | false =>
          obtain ⟨g1, g2⟩ := hreg e0 (hf.old rfl).1
          have hd : decide (tr.ts.getD 0 - e0.requestedAt > 500000) = true := by rw [decide_eq_true_eq]; omega
          rw [hd] at ha
          simp only [Bool.and_true] at ha
          have hdisc : (e0.updateFromStatus { src := tr.header.source, ts := tr.ts.getD 0, uptime := up }).discovered = false := by
            by_cases hr : ∃ u, e0.uptime = some u ∧ up < u
            · obtain ⟨u, hu, hlt⟩ := hr
              simp [Monitor.Entry.updateFromStatus, hu, hlt, Monitor.Entry.discovered, Monitor.maxRetries]
            · rcases g2 with ⟨q1, q2⟩ | q
              · obtain ⟨q3, q4⟩ := p6 (fun u hu => Nat.le_of_not_lt (fun hlt => hr ⟨u, hu, hlt⟩))
                simp only [Monitor.Entry.discovered, q3, q4, q1]
                simp
                omega
              · exact absurd q hr
          rw [hdisc] at ha
          simp at ha
      · exact hr
    rw [ht, List.drop_left]
    have happ : ∀ a b, requests dt (a ++ b) = requests dt a ++ requests dt b := by
      intro a b; simp [requests, List.filterMap_append]
    rw [happ, happ, h1, h2, hrs]
    rfl

/-! ## Over the bus -/

section Bus
open Node EndToEnd Dispatch Requests Rpc Timers

/-- The payloads of the node are those of the code. -/
def IsSelf (d : Shape) (dtS dtI : DataType) (env : Env) (x : Self) : Prop :=
  (∀ s v, statusMessage d x s.now = .ok v → env.statusPayload s = ⟨dtS, v⟩) ∧ ∀ s v, infoMessage d x s.now = .ok v → env.infoPayload s = ⟨dtI, v⟩

/-- A node sends its status (and this returns): frames were handed to the driver that tell every node the uptime, the health and the mode. -/
theorem C127_told (d : Shape) (dtS dtI : DataType) (hmsg : dtS.msg = d.status) (hid : dtS.dtid < 65536) (env : Env) (x : Self)
    (hx : IsSelf d dtS dtI env x) (health mode vendor : Nat) (hp : Proper x health mode vendor) (s s' : Node) (ht : Timely x s.now) (w : Nat)
    (hw : w + 1 < 128) (hn : s.nodeId = some (w + 1)) (hok : sendNodeStatus env s = (.ok (), s')) :
    ∃ mid frames tid v up, s'.trace = s.trace ++ mid ++ frames.map (.frame s.nextNum) ∧ Nearest (s.now - x.start) up ∧
      TellsStatus d up health mode 0 vendor v ∧
      OnAir dtS false s.sendCanfd frames (fun ts => arrived { prio := 20, dtid := dtS.dtid, source := w + 1 } tid ts v s.sendCanfd) := by
  obtain ⟨v, up, h1, h2, h3, h4, h5⟩ := status_eq d x s.now health mode vendor hp ht
  have hpl : dtS.payloadTy false false = d.status := hmsg
  simp only [sendNodeStatus, PyM.bind_run, PyM.get, hn, hx.1 s v h1] at hok
  obtain ⟨mid, frames, g1, g2⟩ := C115_broadcast (env := env) ⟨dtS, v⟩ none none s s' w hn hw (by decide) hid
    (by simp only [hpl]; exact wf_status d) (by simp only [hpl]; exact h2) hok
  simp only [hpl, h3] at g2
  exact ⟨mid, frames, _, v, up, g1, h4, h5, g2⟩

/-- The status message of a node arrives at the handler of a monitor that is to ask (and the call returns): frames were handed to the driver that
ask that node for its info. -/
theorem C127_asks (d : Shape) (dtI : DataType) (hmsg : dtI.msg = request) (hid : dtI.dtid < 256) (menv : Monitor.MEnv)
    (hn : Monitor.NoRaise menv) (m : Monitor.Mon) (hreg : m.registry.Ok) (tr : InTransfer) (up health mode sub vendor : Nat)
    (h : TellsStatus d up health mode sub vendor tr.payload) (hdue : Due m tr.header.source (tr.ts.getD 0) up)
    (hsrc : 1 ≤ tr.header.source ∧ tr.header.source < 128) (env : Env) (e : HEntry) (s s' : Node) (v : Nat) (hb : e.builtin = false)
    (hsv : isService e.type = false) (hscript : env.script s (.handler e.uid tr) = statusScript d dtI menv false m tr)
    (hv : s.nodeId = some (v + 1)) (hv' : v + 1 < 128) (hok : callHandler env e tr s = (.ok (), s')) :
    ∃ mid frames last tid, s'.trace = s.trace ++ mid ++ frames.map (.frame s.nextNum) ++ [last] ∧
      OnAir dtI true s.sendCanfd frames (fun ts => arrived
        { prio := 30, dtid := dtI.dtid, source := v + 1, dest := some tr.header.source, service := true, request := true } tid ts
        (.comp none []) s.sendCanfd) := by
  have hpl : dtI.payloadTy true true = request := by simp only [DataType.payloadTy, if_true, hmsg]
  obtain ⟨m', hm', -⟩ := C127_heard d menv hn m hreg false tr up health mode sub vendor h
  have hreq := asks_once d menv hn m hreg tr up health mode sub vendor h hdue dtI
  rw [hm'] at hreq
  simp only at hreq
  simp only [callHandler, hb, Bool.false_eq_true, if_false, hsv, Bool.false_and, PyM.bind_run, runScript, PyM.get, log, PyM.modify, hscript,
    statusScript, hm', hreq, PyM.tryCatch, runActs, List.append_nil, PyM.forEach, Node.exec, PyM.pure] at hok
  generalize hbr : Node.request env (hookCall env) ⟨dtI, newVal request⟩ tr.header.source (some 30) none none
    { s with trace := s.trace ++ [.called (.handler e.uid tr)] } = r at hok
  obtain ⟨r, s1⟩ := r
  cases r with
  | error e => simp [PyM.raise] at hok
  | ok u =>
    simp only at hok
    injection hok with _ hok
    subst hok
    obtain ⟨mid, frames, last, h1, h2⟩ := C115_request (env := env) ⟨dtI, newVal request⟩ tr.header.source (some 30) none none
      { s with trace := s.trace ++ [.called (.handler e.uid tr)] } s1 v hv hv' hsrc.1 hsrc.2 (by decide) hid
      (by simp only [hpl]; decide) (by simp only [hpl]; decide) hbr
    simp only [hpl] at h2
    exact ⟨.called (.handler e.uid tr) :: mid, frames, last, _, by rw [h1]; simp, h2⟩

/-- If an update callback raises within the handler of the monitor, the handler raises: the node logs it, and raises it unless it catches exceptions. -/
theorem C127_raises (d : Shape) (dtI : DataType) (menv : Monitor.MEnv) (m m' : Monitor.Mon) (anonymous : Bool) (tr : InTransfer) (err : Err)
    (h : onStatus d menv anonymous tr m = (.error err, m')) (env : Env) (e : HEntry) (s : Node) (hb : e.builtin = false)
    (hscript : env.script s (.handler e.uid tr) = statusScript d dtI menv anonymous m tr) : (callHandler env e tr s).1 ≠ .ok () := by
  have key : ∀ (l : List (Cmd × Bool)) (t : Node), (runActs env (hookCall env) (l ++ [(.raise err, false)]) t).1 ≠ .ok () := by
    intro l
    induction l with
    | nil => intro t; simp [runActs, PyM.forEach, Node.exec, PyM.bind_run, PyM.raise]
    | cons c l ih =>
      intro t
      simp only [runActs, List.cons_append, PyM.forEach, PyM.bind_run]
      generalize (if c.2 = true then PyM.tryCatch (Node.exec env (hookCall env) c.1) (fun _ => PyM.pure ()) else Node.exec env (hookCall env) c.1) t = x
      obtain ⟨r, t'⟩ := x
      cases r with
      | error e => simp
      | ok u => simp only; exact ih t'
  have key2 : ∀ t, (runScript env (hookCall env) (.handler e.uid tr) s).1 ≠ .ok t := by
    intro t
    simp only [runScript, PyM.bind_run, PyM.get, log, PyM.modify, hscript, statusScript, h, PyM.tryCatch]
    generalize hx : runActs env (hookCall env) _ _ = x
    have hk : x.1 ≠ .ok () := by rw [← hx]; exact key _ _
    obtain ⟨r, t'⟩ := x
    cases r with
    | error e => simp [PyM.raise, PyM.bind_run]
    | ok u => exact absurd rfl hk
  simp only [callHandler, hb, Bool.false_eq_true, if_false, PyM.bind_run]
  generalize runScript env (hookCall env) (.handler e.uid tr) s = x at key2
  obtain ⟨r, t'⟩ := x
  cases r with
  | error e => simp
  | ok u => exact absurd rfl (key2 u)

/-- The request arrives at the built-in handler of the node (and the answer is sent): frames were handed to the driver that bring the info to the
callback of the request. -/
theorem C127_answer (d : Shape) (hd : 0 < d.coaMax ∧ 0 < d.nameMax) (dtS dtI : DataType) (hmsg : dtI.resp = d.response) (hid : dtI.dtid < 256)
    (env : Env) (x : Self) (hx : IsSelf d dtS dtI env x) (health mode vendor : Nat) (hp : Proper x health mode vendor) (uid name : List Byte)
    (hty : hasTy d.response x.info = true) (hc : canon d.response x.info = x.info) (hi : TellsInfo d (fun _ => True) uid name x.info)
    (e : HEntry) (hb : e.builtin = true) (hsv : isService e.type = true) (hsn : e.sniff = false) (s s' : Node) (ht : Timely x s.now) (w : Nat)
    (hw : w + 1 < 128) (hn : s.nodeId = some (w + 1)) (tr : InTransfer) (v : Nat) (hv : v + 1 < 128) (hsrc : tr.header.source = v + 1)
    (hdst : tr.header.dest = some (w + 1)) (hrq : tr.header.request = true) (hprio : tr.header.prio < 32) (hdt : tr.header.dtid = dtI.dtid)
    (htid : tr.tid.toNat < 32) (hok : callHandler env e tr s = (.ok (), s')) :
    ∃ mid frames, s'.trace = s.trace ++ mid ++ frames.map (.frame s.nextNum) ∧
      FileWire.Brings dtI (v + 1) frames tr.header tr.tid.toNat (fun answer => answer.header.source = w + 1 ∧ ∃ up sub,
        Nearest (s.now - x.start) up ∧ TellsInfo d (TellsStatus d up health mode sub vendor) uid name answer.payload) := by
  obtain ⟨val, up, sub, h1, h2, h3, h4, h5⟩ := info_eq d x s.now health mode vendor hp ht uid name hty hc hi
  have hpl : dtI.payloadTy true false = d.response := by simp only [DataType.payloadTy, if_true, Bool.false_eq_true, if_false, hmsg]
  obtain ⟨mid, frames, ht', hbr⟩ := C93_node_info (env := env) e tr s s' (w + 1) (v + 1) hb hsv hsn hrq htid hn (by omega) (by omega) hsrc (by omega)
    (by omega) hprio hdst ⟨dtI, val⟩ (hx.2 { s with trace := s.trace ++ [.called (.handler e.uid tr)] } val h1).symm hid hdt
    (by simp only [hpl]; exact wf_response d hd.1 hd.2) (by simp only [hpl]; exact h2) hok
  refine ⟨mid, frames, ht', ?_⟩
  intro env' ops t iv ce fd it pre post raw first rest old r q1 q2 q3 q4 q5 q6 q7 q8 q9 q10 q11
  obtain ⟨m, mid2, post2, g1, g2⟩ := hbr env' ops t iv ce fd it pre post raw first rest old r q1 q2 q3 q4 q5 q6 q7 q8 q9 q10 q11
  refine ⟨m, mid2, post2, _, g1, ⟨?_, up, sub, h4, ?_⟩, g2⟩
  · rfl
  · simp only [arrived, hpl, h3]
    exact h5

/-- From the status of a node to the monitor of another. Node `w + 1` sends its status, and this returns: then frames were handed to the driver that
every node understands. If they arrive at a monitor that is to ask the node, and its handler returns: then frames were handed to the driver that
every node understands. If they arrive at the built-in handler of node `w + 1`, and it returns: then frames were handed to the driver that bring an
answer to the callback of the monitor, by which the monitor shows the node with its unique ID and the uptime when it answered. -/
theorem C127_exchange (d : Shape) (hd : 0 < d.coaMax ∧ 0 < d.nameMax) (dtS dtI : DataType) (hstat : dtS.msg = d.status) (hidS : dtS.dtid < 65536)
    (hreq : dtI.msg = request) (hresp : dtI.resp = d.response) (hidI : dtI.dtid < 256)
    (env : Env) (x : Self) (hx : IsSelf d dtS dtI env x) (health mode vendor : Nat) (hp : Proper x health mode vendor) (uid name : List Byte)
    (hty : hasTy d.response x.info = true) (hc : canon d.response x.info = x.info) (hi : TellsInfo d (fun _ => True) uid name x.info)
    (w v : Nat) (hw : w + 1 < 128) (hv : v + 1 < 128) (a a' : Node) (ha : a.nodeId = some (w + 1)) (hta : Timely x a.now)
    (hsend : sendNodeStatus env a = (.ok (), a')) :
    ∃ mid frames tr up, a'.trace = a.trace ++ mid ++ frames.map (.frame a.nextNum) ∧ Nearest (a.now - x.start) up ∧
      OnAir dtS false a.sendCanfd frames tr ∧
      ∀ (ts : Option Int) (menv : Monitor.MEnv) (m : Monitor.Mon) (benv : Env) (e : HEntry) (b b' : Node), Monitor.NoRaise menv → m.registry.Ok →
        Due m (w + 1) (ts.getD 0) up → e.builtin = false → isService e.type = false →
        benv.script b (.handler e.uid (tr ts)) = statusScript d dtI menv false m (tr ts) → b.nodeId = some (v + 1) →
        callHandler benv e (tr ts) b = (.ok (), b') →
        (∃ known, (onStatus d menv false (tr ts) m).2.registry.get? (w + 1) = some known ∧ known.uptime = some up) ∧
        ∃ mid' frames' last hdr tid tr', b'.trace = b.trace ++ mid' ++ frames'.map (.frame b.nextNum) ++ [last] ∧
          OnAir dtI true b.sendCanfd frames' tr' ∧ (∀ ts', (tr' ts').header = hdr ∧ (tr' ts').tid.toNat = tid) ∧
          ∀ (ts' : Option Int) (h : HEntry) (c c' : Node), h.builtin = true → isService h.type = true → h.sniff = false →
            c.nodeId = some (w + 1) → Timely x c.now → callHandler env h (tr' ts') c = (.ok (), c') →
            ∃ mid'' frames'', c'.trace = c.trace ++ mid'' ++ frames''.map (.frame c.nextNum) ∧
              FileWire.Brings dtI (v + 1) frames'' hdr tid (fun answer => ∃ up', Nearest (c.now - x.start) up' ∧
                ∀ m2 : Monitor.Mon, m2.registry.Ok → ∃ found, (onInfo d menv (some answer) m2).2.registry.get? (w + 1) = some found ∧
                  found.nodeId = w + 1 ∧ found.info = some uid ∧ found.uptime = some up' ∧ found.discovered = true) := by
  obtain ⟨mid, frames, tid0, val, up, h1, h2, h3, h4⟩ := C127_told d dtS dtI hstat hidS env x hx health mode vendor hp a a' hta w hw ha hsend
  refine ⟨mid, frames, _, up, h1, h2, h4, ?_⟩
  intro ts menv m benv e b b' hn hreg hdue hb hsv hscript hbn hok
  obtain ⟨m', k1, -, known, k2, k3, -⟩ := C127_heard d menv hn m hreg false
    (arrived { prio := 20, dtid := dtS.dtid, source := w + 1 } tid0 ts val a.sendCanfd) up health mode 0 vendor h3
  refine ⟨⟨known, by rw [k1]; exact k2, k3⟩, ?_⟩
  obtain ⟨mid', frames', last, tid, g1, g2⟩ := C127_asks d dtI hreq hidI menv hn m hreg
    (arrived { prio := 20, dtid := dtS.dtid, source := w + 1 } tid0 ts val a.sendCanfd) up health mode 0 vendor h3 hdue
    ⟨by simp [arrived], by simpa [arrived] using hw⟩ benv e b b' v hb hsv hscript hbn hv hok
  refine ⟨mid', frames', last, _, _, _, g1, g2, fun ts' => ⟨rfl, rfl⟩, ?_⟩
  intro ts' h c c' hhb hhsv hhsn hcn htc hcok
  obtain ⟨mid'', frames'', q1, q2⟩ := C127_answer d hd dtS dtI hresp hidI env x hx health mode vendor hp uid name hty hc hi h hhb hhsv hhsn c c' htc w
    hw hcn _ v hv rfl rfl rfl (by show 30 < 32; decide) rfl
    (by
      show (BitVec.ofNat 8 (_ % 32)).toNat < 32
      rw [BitVec.toNat_ofNat]
      omega) hcok
  refine ⟨mid'', frames'', q1, ?_⟩
  intro env' ops t iv ce fd it pre post raw first rest old r p1 p2 p3 p4 p5 p6 p7 p8 p9 p10 p11
  obtain ⟨m3, mid3, post3, answer, z1, ⟨z2, up', sub, z3, z4⟩, z5⟩ := q2 env' ops t iv ce fd it pre post raw first rest old r p1 p2 p3 p4 p5 p6 p7 p8 p9 p10 p11
  refine ⟨m3, mid3, post3, answer, z1, ⟨up', z3, ?_⟩, z5⟩
  intro m2 hm2
  obtain ⟨found, f1, f2, f3, f4, -, f6, -⟩ := C127_seen d menv hn m2 hm2 answer up' health mode sub vendor uid name z4
  rw [z2] at f1 f4
  exact ⟨found, f1, f4, f3, f2, f6⟩

end Bus

/-! ## The hypotheses can be met -/

def bytesOf (l : List Nat) : Val := .arr (l.map fun n => .prim (formatBin 8 n))

/-- The info of a node with the unique ID 1, ..., 16 and the name "é". -/
def sampleInfo : Val :=
  .comp none [newVal ({} : Shape).status, newVal ({} : Shape).software,
    .comp none [.prim (formatBin 8 2), .prim (formatBin 8 1), bytesOf [1, 2, 3, 4, 5, 6, 7, 8, 9, 10, 11, 12, 13, 14, 15, 16], bytesOf []],
    bytesOf [0xC3, 0xA9]]

def sampleSelf : Self := { start := 1000000, vendor := 513, info := sampleInfo }

example : Proper sampleSelf 0 1 513 := ⟨by decide, by decide, by decide⟩

example : Timely sampleSelf 3600000 ∧ Nearest (3600000 - sampleSelf.start) 3 := by
  simp only [Timely, Nearest, sampleSelf]; decide

example : hasTy ({} : Shape).response sampleInfo = true ∧ canon ({} : Shape).response sampleInfo = sampleInfo := by decide +kernel

example : TellsInfo {} (fun _ => True) [1, 2, 3, 4, 5, 6, 7, 8, 9, 10, 11, 12, 13, 14, 15, 16] [0xC3, 0xA9] sampleInfo :=
  ⟨_, _, _, _, _, _, _, _, _, rfl, trivial, by decide +kernel, by decide +kernel⟩

def sampleStatusType : DataType := { dtid := 341, baseCrc := 0x1234, msg := ({} : Shape).status }
def sampleInfoType : DataType := { dtid := 1, baseCrc := 0x4321, msg := request, resp := ({} : Shape).response }

def sampleMEnv : Monitor.MEnv := { adv := fun _ => 0, offline := 3000000 }

/-- A monitor that knows no node. -/
def sampleMon : Monitor.Mon := { clock := { now := 0 }, callbacks := [7] }

/-- The environment of both nodes. -/
def sampleEnv : Env :=
  { db := fun n service => if n = 341 ∧ service = false then some sampleStatusType else if n = 1 ∧ service = true then some sampleInfoType else none
    script := fun _ c => match c with
      | .handler _ tr => statusScript {} sampleInfoType sampleMEnv false sampleMon tr
      | _ => {}
    statusPayload := fun s => match statusMessage {} sampleSelf s.now with
      | .ok v => ⟨sampleStatusType, v⟩
      | .error _ => ⟨sampleStatusType, .void⟩
    infoPayload := fun s => match infoMessage {} sampleSelf s.now with
      | .ok v => ⟨sampleInfoType, v⟩
      | .error _ => ⟨sampleInfoType, .void⟩ }

example : IsSelf {} sampleStatusType sampleInfoType sampleEnv sampleSelf :=
  ⟨fun s v h => by simp only [sampleEnv, h], fun s v h => by simp only [sampleEnv, h]⟩

/-- Node 20 sends its status. -/
example : (Node.sendNodeStatus sampleEnv (Node.init (some 20) 3600000 none true false (1, true))).1 = .ok () := by decide +kernel

example : TellsStatus {} 3 0 1 0 513 (.comp none [.prim (formatBin 32 3), .prim (formatBin 2 0), .prim (formatBin 3 1), .prim (formatBin 3 0),
    .prim (formatBin 16 513)]) :=
  ⟨_, _, _, _, _, _, rfl, by decide +kernel, by decide +kernel, by decide +kernel, by decide +kernel, by decide +kernel⟩

example : Due sampleMon 20 4000000 3 := ⟨by decide, fun e h => by cases h⟩

/-- Node 10 asks it. -/
example : (Node.callHandler sampleEnv { uid := 1, type := some (341, false), sniff := false }
    (arrived { prio := 20, dtid := 341, source := 20 } 0 (some 4000000) (.comp none [.prim (formatBin 32 3), .prim (formatBin 2 0),
      .prim (formatBin 3 1), .prim (formatBin 3 0), .prim (formatBin 16 513)]) false)
    (Node.init (some 10) 0 none true false (1, true))).1 = .ok () := by decide +kernel

/-- Node 20 answers. -/
example : (Node.callHandler sampleEnv { uid := 0, type := some (1, true), sniff := false, builtin := true }
    (arrived { prio := 30, dtid := 1, source := 10, dest := some 20, service := true, request := true } 0 none (.comp none []) false)
    (Node.init (some 20) 3600000 none true false (1, true))).1 = .ok () := by decide +kernel

/-- A callback that raises. -/
example : (onStatus {} { sampleMEnv with raises := fun _ _ => some .valueError } false (arrived { prio := 20, dtid := 341, source := 20 } 0
    (some 4000000) (.comp none [.prim (formatBin 32 3), .prim (formatBin 2 0), .prim (formatBin 3 1), .prim (formatBin 3 0),
      .prim (formatBin 16 513)]) false) sampleMon).1 = .error .valueError := by decide +kernel

/-- What the monitor of node 10 then shows. -/
example : ((onInfo {} sampleMEnv (some (arrived { prio := 30, dtid := 1, source := 20, dest := some 10, service := true } 0 (some 5000000)
    sampleInfo false)) sampleMon).2.registry.get? 20).map (fun e => (e.info, e.discovered)) =
    some (some [1, 2, 3, 4, 5, 6, 7, 8, 9, 10, 11, 12, 13, 14, 15, 16], true) := by decide +kernel

/-- The sizes of the messages that the layouts stand for. -/
theorem C127_size (d : Shape) : minBitlen d.status = 56 ∧ maxBitlen d.status = 56 ∧ minBitlen d.software = 120 ∧ maxBitlen d.software = 120 ∧
    minBitlen d.hardware = 144 ∧ maxBitlen d.hardware = 144 + bitLength d.coaMax + d.coaMax * 8 ∧
    minBitlen d.response = 56 + 120 + 144 ∧
    maxBitlen d.response = 56 + 120 + 144 + bitLength d.coaMax + d.coaMax * 8 + bitLength d.nameMax + d.nameMax * 8 := by
  simp [Shape.status, Shape.software, Shape.hardware, Shape.response, minBitlen, minBitlens, maxBitlen, maxBitlens]
  omega

end MonitorWire
end Dronecan
