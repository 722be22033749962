import Verif.Props.Framing
import Verif.Props.TransferManager
import Verif.Props.Hooks

/-!
# From node to node (C91)
-/

namespace Dronecan
open Node Dispatch PyM

/-! ## Specification -/

/-- What a node reads from its driver, and the transfers it receives. -/
inductive NetEv where
  | frame (raw : RawFrame)
  | transfer (tr : InTransfer)

def netEv : Ev → Option NetEv
  | .read (some raw) => some (.frame raw)
  | .received _ tr => some (.transfer tr)
  | _ => none

/-- The part of a history about frames read and transfers received. -/
def netLog (t : List Ev) : List NetEv := t.filterMap netEv

/-- The frame in transport terms. -/
def RawFrame.toFrame (raw : RawFrame) : Frame := { id := raw.id, bytes := raw.data, ts := raw.ts, canfd := raw.canfd }

/-- The extended frames read. -/
def framesIn (l : List NetEv) : List Frame := l.filterMap fun
  | .frame raw => if raw.extended then some raw.toFrame else none
  | .transfer _ => none

/-- The transfers received are determined by the frames read: a transfer is received directly after the extended frame that
completes it, if its frames can be decoded, and at no other time. -/
inductive Explained (db : Registry) : List NetEv → Prop
  | nil : Explained db []
  | standard {l : List NetEv} {raw : RawFrame} (h : Explained db l) (hx : raw.extended = false) : Explained db (l ++ [.frame raw])
  | nothing {l : List NetEv} {raw : RawFrame} (h : Explained db l) (hx : raw.extended = true)
      (hn : ∀ p tr, Completed (ofKey raw.toFrame.key (framesIn l ++ [raw.toFrame])) p → fromFrames db p ≠ .ok tr) :
      Explained db (l ++ [.frame raw])
  | transfer {l : List NetEv} {raw : RawFrame} {p : List Frame} {tr : InTransfer} (h : Explained db l) (hx : raw.extended = true)
      (hp : Completed (ofKey raw.toFrame.key (framesIn l ++ [raw.toFrame])) p) (ht : fromFrames db p = .ok tr) :
      Explained db (l ++ [.frame raw, .transfer tr])

/-- The transfer that arrives. -/
def arrived (hdr : Header) (tid : Nat) (ts : Option Int) (v : Val) (fd : Bool) : InTransfer :=
  { header := hdr, tid := BitVec.ofNat 8 (tid % 32), ts, payload := v, canfd := fd }

/-- The program uses the public interface only: frames come from the driver. -/
def Public (ops : List Op) : Prop := ∀ f, Op.frame f ∉ ops

/-- `raw` is what a driver yields when `f` was sent. -/
def OnWire (f : Frame) (raw : RawFrame) : Prop :=
  raw.id = f.id ∧ raw.data = f.bytes ∧ raw.canfd = f.canfd ∧ raw.extended = true

/-- The frames arrive, one by one and in order. -/
inductive Arrive : List Frame → List RawFrame → Prop
  | nil : Arrive [] []
  | cons {f : Frame} {raw : RawFrame} {fs : List Frame} {raws : List RawFrame} (h : OnWire f raw) (hs : Arrive fs raws) :
      Arrive (f :: fs) (raw :: raws)

/-- Every node whose registry has the data type, whatever its program and history, receives the transfer `tr` (up to its time stamp, that of
the first frame) when it has read the frames, in whatever company: the last frames it read with that identifier and transfer ID are these.
The reception comes before the next frame is read. -/
def Understood (dt : DataType) (service : Bool) (frames : List Frame) (tr : Option Int → InTransfer) : Prop :=
  ∀ (env : Env) (ops : List Op) (nid : Option Nat) (t : Int) (iv : Option Int) (ce fd : Bool) (it : Nat × Bool)
    (pre post : List Ev) (raw first : RawFrame) (rest : List RawFrame) (old : List Frame),
    Public ops → env.db dt.dtid service = some dt →
    (run env ops (init nid t iv ce fd it)).trace = pre ++ .read (some raw) :: post → raw.extended = true → Arrive frames (first :: rest) →
    ofKey raw.toFrame.key (framesIn (netLog pre) ++ [raw.toFrame]) = old ++ (first :: rest).map RawFrame.toFrame →
    ∃ mid m post', post = mid ++ .received m (tr first.ts) :: post' ∧ netLog mid = []

/-! ## What does not matter -/

variable {env : Env}

theorem Node.UserClosed.and {b : Nat} {I J : Node → Prop} (h : UserClosed env b I) (h' : UserClosed env b J) :
    UserClosed env b (fun s => I s ∧ J s) where
  tick d s hs := ⟨h.tick d s hs.1, h'.tick d s hs.2⟩
  defer t s hs := ⟨h.defer t s hs.1, h'.defer t s hs.2⟩
  periodic p s hs := ⟨h.periodic p s hs.1, h'.periodic p s hs.2⟩
  cancel i s hs := ⟨h.cancel i s hs.1, h'.cancel i s hs.2⟩
  acceptReq a b c s hs := ⟨h.acceptReq a b c s hs.1, h'.acceptReq a b c s hs.2⟩
  acceptMsg a b s hs := ⟨h.acceptMsg a b s hs.1, h'.acceptMsg a b s hs.2⟩
  acceptResponse a b c d s hs := ⟨h.acceptResponse a b c d s hs.1, h'.acceptResponse a b c d s hs.2⟩
  sendFrame n f c s h1 h2 h3 hs := ⟨h.sendFrame n f c s h1 h2 h3 hs.1, h'.sendFrame n f c s h1 h2 h3 hs.2⟩
  registerRequest n c m d t s h1 h2 h3 h4 hs := ⟨h.registerRequest n c m d t s h1 h2 h3 h4 hs.1, h'.registerRequest n c m d t s h1 h2 h3 h4 hs.2⟩
  addHandler t x s hs := ⟨h.addHandler t x s hs.1, h'.addHandler t x s hs.2⟩
  removeHandler u s hs := ⟨h.removeHandler u s hs.1, h'.removeHandler u s hs.2⟩
  removeHandlers t s hs := ⟨h.removeHandlers t s hs.1, h'.removeHandlers t s hs.2⟩
  addHook s hs := ⟨h.addHook s hs.1, h'.addHook s hs.2⟩
  removeHook k s hs := ⟨h.removeHook k s hs.1, h'.removeHook k s hs.2⟩
  setNodeId v s hs := ⟨h.setNodeId v s hs.1, h'.setNodeId v s hs.2⟩
  setCanfd v s hs := ⟨h.setCanfd v s hs.1, h'.setCanfd v s hs.2⟩
  logHook k n a s h1 h2 hs := ⟨h.logHook k n a s h1 h2 hs.1, h'.logHook k n a s h1 h2 hs.2⟩
  logHookRaised k n a s h1 h2 hs := ⟨h.logHookRaised k n a s h1 h2 hs.1, h'.logHookRaised k n a s h1 h2 hs.2⟩

theorem tm_user (T : TmState) : UserClosed env 0 (fun s => s.tm = T) where
  tick _ _ h := h
  defer _ _ h := h
  periodic _ _ h := h
  cancel i s h := by
    unfold Node.cancel
    split
    · split <;> exact h
    · exact h
  acceptReq _ _ _ s h := by unfold acceptTid; split <;> exact h
  acceptMsg _ _ s h := by unfold acceptTid; split <;> exact h
  acceptResponse _ _ _ _ s h := by unfold Node.acceptResponse; split <;> exact h
  sendFrame _ _ _ s _ _ _ h := by unfold Node.sendFrame; split <;> exact h
  registerRequest _ _ _ _ _ _ _ _ _ _ h := h
  addHandler _ _ _ h := h
  removeHandler _ s h := by unfold Node.removeHandler; split <;> exact h
  removeHandlers _ _ h := h
  addHook _ h := h
  removeHook _ s h := by unfold Node.removeHook; split <;> exact h
  setNodeId _ s h := by
    unfold Node.setNodeId
    split
    · split <;> exact h
    · exact h
  setCanfd _ _ h := h
  logHook _ _ _ _ _ _ h := h
  logHookRaised _ _ _ _ _ _ h := h

theorem blind_net : Blind 0 netEv where
  armed _ _ _ _ := rfl
  cancelled _ _ := rfl
  accepted _ _ := rfl
  requested _ _ _ _ _ := rfl
  frame _ _ _ := rfl
  hook _ _ _ _ := rfl
  hookRaised _ _ _ _ := rfl

/-- Application code, polling and the delivery of transfers touch neither the reassembly nor the log. -/
theorem net_act (T : TmState) (K : List NetEv) : ActClosed env 0 (fun _ s => s.tm = T ∧ netLog s.trace = K) where
  user _ := (tm_user T).and (blind_net.user K)
  fire s e s' h ht := by
    unfold takeDue at ht
    split at ht
    · cases ht
    · split at ht
      · cases ht
      · injection ht with ht
        injection ht with h1 h2
        subst h2
        refine ⟨?_, ?_⟩
        · show (beforeCallback _ _).tm = T
          unfold beforeCallback
          split <;> exact h.1
        · show ((beforeCallback _ _).trace ++ callOf e.action).filterMap netEv = K
          rw [beforeCallback_trace, List.filterMap_append, filterMap_snoc_none rfl]
          have : (callOf e.action).filterMap netEv = [] := by
            cases e.action <;> rfl
          rw [this, List.append_nil]
          exact h.2
  raisedTimer _ _ h := ⟨h.1, (filterMap_snoc_none rfl).trans h.2⟩
  raisedTimeout _ _ h := ⟨h.1, (filterMap_snoc_none rfl).trans h.2⟩
  handler _ _ _ h := ⟨h.1, (filterMap_snoc_none rfl).trans h.2⟩
  handlerRaised _ _ _ h := ⟨h.1, (filterMap_snoc_none rfl).trans h.2⟩
  deliver _ _ _ _ _ _ _ _ h := ⟨h.1, (filterMap_snoc_none rfl).trans h.2⟩
  deliverRaised _ _ _ _ h := ⟨h.1, (filterMap_snoc_none rfl).trans h.2⟩
  del key s h := by unfold delOutstanding; split <;> exact h

/-! ## Reception -/

/-- What holds between the reads of a node. -/
def NetInv (env : Env) (s : Node) : Prop := Agrees s.tm (framesIn (netLog s.trace)) ∧ Explained env.db (netLog s.trace)

theorem NetInv.same {s s' : Node} (h : NetInv env s) (h' : s'.tm = s.tm ∧ netLog s'.trace = netLog s.trace) : NetInv env s' := by
  unfold NetInv
  rw [h'.1, h'.2]
  exact h

theorem act_inv {α : Type} {m : PyM Node α} (hm : ∀ T K, Pres 0 (fun s => s.tm = T ∧ netLog s.trace = K) m) : Pres 0 (NetInv env) m := by
  intro s hb hs
  have h := hm s.tm (netLog s.trace) s hb ⟨rfl, rfl⟩
  exact ⟨hs.same h.1, h.2⟩

theorem framesIn_snoc (l : List NetEv) (raw : RawFrame) (hx : raw.extended = true) : framesIn (l ++ [.frame raw]) = framesIn l ++ [raw.toFrame] := by
  simp [framesIn, hx]

theorem framesIn_transfer (l : List NetEv) (tr : InTransfer) : framesIn (l ++ [.transfer tr]) = framesIn l := by
  simp [framesIn]

/-- Reading a frame and receiving it. -/
theorem read_inv (raw : RawFrame) : Pres 0 (NetInv env) (log (.read (some raw)) >>- fun _ => recvFrame env raw) := by
  intro s _ hs
  have hext : Ext s ((log (.read (some raw)) >>- fun _ => recvFrame env raw) s).2 := by
    refine (log_ext (.read (some raw)) s).trans ?_
    exact (recvFrame_pres (blind_read.recv (env := env) _) raw _ (Nat.zero_le _) rfl).2
  refine ⟨?_, hext⟩
  show NetInv env (recvFrame env raw (log (.read (some raw)) s).2).2
  have hlog : netLog (log (.read (some raw)) s).2.trace = netLog s.trace ++ [.frame raw] := filterMap_snoc_some rfl
  have htm : (log (.read (some raw)) s).2.tm = s.tm := rfl
  generalize (log (.read (some raw)) s).2 = s1 at hlog htm
  by_cases hx : raw.extended = true
  · obtain ⟨h1, h2⟩ := receive_step s1.tm (framesIn (netLog s.trace)) s1.now raw.toFrame (by rw [htm]; exact hs.1)
    have hrun : recvFrame env raw s1 = (match (receiveFrame s1.tm s1.now raw.toFrame).2 with
      | none => PyM.pure ()
      | some frames =>
        lift (fromFrames env.db frames) >>- fun tr =>
        acceptRx tr >>- fun n =>
        callHooks env (hookCall env) n (.rx tr) >>- fun _ =>
        dispatch env tr : PyM Node Unit) { s1 with tm := (receiveFrame s1.tm s1.now raw.toFrame).1 } := by
      unfold recvFrame
      rw [hx]
      rfl
    rw [hrun]
    have base : ∀ (hn : ∀ p tr, Completed (ofKey raw.toFrame.key (framesIn (netLog s.trace) ++ [raw.toFrame])) p → fromFrames env.db p ≠ .ok tr),
        NetInv env { s1 with tm := (receiveFrame s1.tm s1.now raw.toFrame).1 } := by
      intro hn
      refine ⟨?_, ?_⟩
      · show Agrees _ (framesIn (netLog s1.trace))
        rw [hlog, framesIn_snoc _ _ hx]
        exact h1
      · show Explained env.db (netLog s1.trace)
        rw [hlog]
        exact .nothing hs.2 hx hn
    cases ho : (receiveFrame s1.tm s1.now raw.toFrame).2 with
    | none =>
      apply base
      intro p tr hp
      rw [(h2 p).2 hp] at ho
      cases ho
    | some frames =>
      simp only [bind_run, lift_run]
      cases hf : fromFrames env.db frames with
      | error e =>
        apply base
        intro p tr hp hft
        have := (h2 p).2 hp
        rw [ho] at this
        injection this with this
        subst this
        rw [hf] at hft
        cases hft
      | ok tr =>
        simp only [acceptRx]
        have hinv : NetInv env { s1 with
            tm := (receiveFrame s1.tm s1.now raw.toFrame).1
            nextNum := s1.nextNum + 1
            trace := s1.trace ++ [.received s1.nextNum tr] } := by
          have hl : netLog (s1.trace ++ [.received s1.nextNum tr]) = netLog s.trace ++ [.frame raw] ++ [.transfer tr] := by
            rw [← hlog]
            exact filterMap_snoc_some rfl
          refine ⟨?_, ?_⟩
          · show Agrees _ (framesIn (netLog (s1.trace ++ [.received s1.nextNum tr])))
            rw [hl, framesIn_transfer, framesIn_snoc _ _ hx]
            exact h1
          · show Explained env.db (netLog (s1.trace ++ [.received s1.nextNum tr]))
            rw [hl, List.append_assoc]
            exact .transfer hs.2 hx ((h2 frames).1 ho) hf
        generalize hs2 : ({ s1 with
            tm := (receiveFrame s1.tm s1.now raw.toFrame).1
            nextNum := s1.nextNum + 1
            trace := s1.trace ++ [.received s1.nextNum tr] } : Node) = s2 at hinv
        have hn2 : s1.nextNum < s2.nextNum := by rw [← hs2]; exact Nat.lt_succ_self _
        have hk := callHooks_pres (env := env) (net_act (env := env) s2.tm (netLog s2.trace)).call_ok s1.nextNum (.rx tr) (Nat.zero_le _) s2 hn2 ⟨rfl, rfl⟩
        cases hc : callHooks env (hookCall env) s1.nextNum (.rx tr) s2 with
        | mk r s3 =>
          rw [hc] at hk
          have h3 := hinv.same hk.1
          cases r with
          | error e => exact h3
          | ok _ => exact (act_inv (fun T K => dispatch_pres (net_act T K) tr) s3 (Nat.zero_le _) h3).1
  · have hx' : raw.extended = false := by simpa using hx
    have hrun : recvFrame env raw s1 = (.ok (), s1) := by
      unfold recvFrame
      rw [hx']
      rfl
    rw [hrun]
    refine ⟨?_, ?_⟩
    · show Agrees s1.tm (framesIn (netLog s1.trace))
      rw [hlog, htm]
      have : framesIn (netLog s.trace ++ [.frame raw]) = framesIn (netLog s.trace) := by simp [framesIn, hx']
      rw [this]
      exact hs.1
    · show Explained env.db (netLog s1.trace)
      rw [hlog]
      exact .standard hs.2 hx'

theorem readNone_inv : Pres 0 (NetInv env) (log (.read none)) :=
  prim_pres (fun _ hs => hs.same ⟨rfl, filterMap_snoc_none rfl⟩) (log_ext _)

theorem poll_inv (ds : List Nat) : Pres 0 (NetInv env) (poll env ds) := act_inv (fun T K => poll_pres (net_act T K).toPollClosed ds)

theorem bind_assoc {α β γ : Type} (m : PyM Node α) (f : α → PyM Node β) (g : β → PyM Node γ) :
    ((m >>- f) >>- g) = (m >>- fun a => f a >>- g) := by
  funext s
  simp only [bind_run]
  cases m s with
  | mk r s' => cases r <;> rfl

theorem drain_inv (fs : List (Option RawFrame)) : ∀ n, Pres 0 (NetInv env) (drain env fs n) := by
  induction fs with
  | nil => exact fun n => readNone_inv.bind fun _ => Pres.pure _
  | cons f fs ih =>
    intro n
    cases f with
    | none => exact readNone_inv.bind fun _ => Pres.pure _
    | some f =>
      have := (read_inv (env := env) f).bind (fun _ => ih (n + 1))
      rw [bind_assoc] at this
      exact this

theorem executeOnce_inv (r : Round) : Pres 0 (NetInv env) (executeOnce env r) := by
  apply (poll_inv r.clock).bind
  intro _
  apply Pres.bind (prim_pres (fun _ hs => hs.same ⟨rfl, rfl⟩) (tick_ext r.elapsed))
  intro _
  cases r.frame with
  | none => exact readNone_inv.bind fun _ => Pres.pure _
  | some f =>
    have := (read_inv (env := env) f).bind (fun _ => Pres.pure (b := 0) (I := NetInv env) (1 : Nat))
    rw [bind_assoc] at this
    exact this

theorem spinLoop_inv (dl : Option Int) : ∀ rs, Pres 0 (NetInv env) (spinLoop env dl rs) := by
  intro rs
  induction rs with
  | nil => exact Pres.pure _
  | cons r rs ih =>
    apply Pres.get.bind
    intro s
    split
    · exact (executeOnce_inv r).bind fun _ => ih
    · exact Pres.pure _

theorem step_inv (op : Op) (hop : ∀ f, op ≠ .frame f) (s : Node) (hs : NetInv env s) : NetInv env (step env op s) := by
  cases op with
  | api c => exact (act_inv (fun T K => exec_pres ((net_act T K).user none) (net_act T K).call_ok c) s (Nat.zero_le _) hs).1
  | poll ds => exact (poll_inv ds s (Nat.zero_le _) hs).1
  | frame f => exact absurd rfl (hop f)
  | spin0 fs ds => exact (((drain_inv fs 0).bind fun _ => (poll_inv ds).bind fun _ => Pres.pure _) s (Nat.zero_le _) hs).1
  | spin t r rs =>
    exact ((Pres.get.bind fun _ => (executeOnce_inv r).bind fun _ => (spinLoop_inv _ rs).bind fun _ => Pres.pure _) s (Nat.zero_le _) hs).1

theorem run_inv (ops : List Op) (hops : Public ops) (s : Node) (hs : NetInv env s) : NetInv env (run env ops s) := by
  induction ops generalizing s with
  | nil => exact hs
  | cons op ops ih =>
    exact ih (fun f hf => hops f (List.mem_cons_of_mem _ hf)) _ (step_inv op (fun f hf => hops f (by rw [← hf]; exact List.mem_cons_self)) s hs)

theorem init_inv (nid : Option Nat) (t : Int) (iv : Option Int) (ce fd : Bool) (it : Nat × Bool) : NetInv env (init nid t iv ce fd it) :=
  ⟨agrees_nil, .nil⟩

/-- Whatever the program, its callbacks and the traffic: the transfers received are exactly those completed by the frames read, each
received directly after the frame that completes it. -/
theorem C91_received (ops : List Op) (hops : Public ops) (nid : Option Nat) (t : Int) (iv : Option Int) (ce fd : Bool) (it : Nat × Bool) :
    Explained env.db (netLog (run env ops (init nid t iv ce fd it)).trace) :=
  (run_inv ops hops _ (init_inv nid t iv ce fd it)).2

/-! ## The frames of a transfer -/

theorem completed_unique {hist : List Frame} {f : Frame} {p q : List Frame} (hp : Completed (ofKey f.key (hist ++ [f])) p)
    (hq : Completed (ofKey f.key (hist ++ [f])) q) : p = q := by
  have h1 := (C21_reassembled_iff (hist.map (fun x => ((0 : Int), x))) 0 f p).2 (by simpa [Function.comp_def] using hp)
  have h2 := (C21_reassembled_iff (hist.map (fun x => ((0 : Int), x))) 0 f q).2 (by simpa [Function.comp_def] using hq)
  rw [h1] at h2
  injection h2

theorem snoc_split {a b l : List NetEv} {e x : NetEv} (he : l ++ [e] = a ++ x :: b) :
    (b = [] ∧ l = a ∧ e = x) ∨ ∃ b', b = b' ++ [e] ∧ l = a ++ x :: b' := by
  rcases List.eq_nil_or_concat b with rfl | ⟨b', y, rfl⟩
  · left
    have := List.append_inj' he rfl
    exact ⟨rfl, this.1, by simpa using this.2⟩
  · right
    have he' : l ++ [e] = (a ++ x :: b') ++ [y] := by simpa using he
    have := List.append_inj' he' rfl
    have hy : e = y := by simpa using this.2
    exact ⟨b', by rw [hy]; simp, this.1⟩

theorem explained_before {db : Registry} {l : List NetEv} (h : Explained db l) : ∀ {a b : List NetEv} {tr : InTransfer},
    l = a ++ .transfer tr :: b → ∃ a' raw p, a = a' ++ [.frame raw] ∧ raw.extended = true ∧
      Completed (ofKey raw.toFrame.key (framesIn a' ++ [raw.toFrame])) p ∧ fromFrames db p = .ok tr := by
  induction h with
  | nil =>
    intro a b tr he
    simp at he
  | standard h hx ih =>
    intro a b tr he
    rcases snoc_split he with ⟨-, -, h3⟩ | ⟨b', rfl, h2⟩
    · cases h3
    · exact ih h2
  | nothing h hx hn ih =>
    intro a b tr he
    rcases snoc_split he with ⟨-, -, h3⟩ | ⟨b', rfl, h2⟩
    · cases h3
    · exact ih h2
  | @transfer l raw0 q tr0 h hx hq hq' ih =>
    intro a b tr he
    have he' : (l ++ [.frame raw0]) ++ [.transfer tr0] = a ++ .transfer tr :: b := by rw [← he]; simp
    rcases snoc_split he' with ⟨-, h2, h3⟩ | ⟨b', rfl, h2⟩
    · injection h3 with h3
      subst h3
      exact ⟨l, raw0, q, h2.symm, hx, hq, hq'⟩
    · rcases snoc_split h2 with ⟨-, -, h3⟩ | ⟨b'', rfl, h4⟩
      · cases h3
      · exact ih h4

theorem explained_after {db : Registry} {l : List NetEv} (h : Explained db l) : ∀ {a b : List NetEv} {raw : RawFrame} {p : List Frame} {tr : InTransfer},
    l = a ++ .frame raw :: b → raw.extended = true → Completed (ofKey raw.toFrame.key (framesIn a ++ [raw.toFrame])) p →
    fromFrames db p = .ok tr → ∃ b', b = .transfer tr :: b' := by
  induction h with
  | nil =>
    intro a b raw p tr he
    simp at he
  | standard h hx ih =>
    intro a b raw p tr he hr hp ht
    rcases snoc_split he with ⟨-, -, h3⟩ | ⟨b', rfl, h2⟩
    · injection h3 with h3
      subst h3
      rw [hx] at hr
      cases hr
    · obtain ⟨b'', rfl⟩ := ih h2 hr hp ht
      exact ⟨_, rfl⟩
  | nothing h hx hn ih =>
    intro a b raw p tr he hr hp ht
    rcases snoc_split he with ⟨-, h2, h3⟩ | ⟨b', rfl, h2⟩
    · injection h3 with h3
      subst h3 h2
      exact absurd ht (hn p tr hp)
    · obtain ⟨b'', rfl⟩ := ih h2 hr hp ht
      exact ⟨_, rfl⟩
  | @transfer l raw0 q tr0 h hx hq hq' ih =>
    intro a b raw p tr he hr hp ht
    have he' : (l ++ [.frame raw0]) ++ [.transfer tr0] = a ++ .frame raw :: b := by rw [← he]; simp
    rcases snoc_split he' with ⟨-, -, h3⟩ | ⟨b', rfl, h2⟩
    · cases h3
    · rcases snoc_split h2 with ⟨rfl, h4, h3⟩ | ⟨b'', rfl, h4⟩
      · injection h3 with h3
        subst h3 h4
        have := completed_unique hp hq
        subst this
        rw [hq'] at ht
        injection ht with ht
        subst ht
        exact ⟨[], rfl⟩
      · obtain ⟨b3, rfl⟩ := ih h4 hr hp ht
        exact ⟨_, rfl⟩

/-- A frame without its time stamp. -/
def Frame.bare (f : Frame) : Frame := { f with ts := none }

theorem checkTails_bare (n : Nat) (tid : Byte) (l : List Frame) : ∀ i tog, checkTails n tid i tog (l.map Frame.bare) = checkTails n tid i tog l := by
  induction l with
  | nil => intro i tog; rfl
  | cons f l ih =>
    intro i tog
    simp only [List.map_cons, checkTails, Frame.bare, ih]

/-- Time stamps do not matter. -/
theorem fromFrames_bare (db : Registry) (f : Frame) (fs : List Frame) (t : InTransfer) (h : fromFrames db ((f :: fs).map Frame.bare) = .ok t) :
    fromFrames db (f :: fs) = .ok { t with ts := f.ts } := by
  have hv : validateFrames ((f :: fs).map Frame.bare) = validateFrames (f :: fs) := by
    have := checkTails_bare (f :: fs).length
    simp only [List.map_cons] at this ⊢
    simp only [validateFrames]
    show (match f.bytes.getLast? with
      | none => _
      | some tail => _) = _
    cases f.bytes.getLast? with
    | none => rfl
    | some tail =>
      simp only [List.length_cons, List.length_map]
      have h2 := checkTails_bare (f :: fs).length (tail &&& 0x1F#8) (f :: fs) 0 0#8
      simp only [List.map_cons, List.length_cons] at h2
      rw [h2]
  have hj : joinPayload ((f :: fs).map Frame.bare) = joinPayload (f :: fs) := by
    simp [joinPayload, List.flatMap_map, Frame.bare]
  have hc : ((f :: fs).map Frame.bare).any (·.canfd) = (f :: fs).any (·.canfd) := by
    rw [List.any_map]
    rfl
  have hl : ((f :: fs).map Frame.bare).length = (f :: fs).length := List.length_map _
  rw [List.map_cons] at hv hj hc hl h
  simp only [fromFrames, bind, Except.bind] at h ⊢
  rw [hv] at h
  rw [hj, hc, hl] at h
  cases hv' : validateFrames (f :: fs) with
  | error e => rw [hv'] at h; cases h
  | ok tid =>
    rw [hv'] at h
    simp only at h ⊢
    have hid : f.bare.id = f.id := rfl
    rw [hid] at h
    split at h
    · cases h
    · rename_i dt hdt
      cases hcrc : checkCrc dt.baseCrc ((f :: fs).length > 1) (joinPayload (f :: fs)) with
      | error e => rw [hcrc] at h; cases h
      | ok bytes =>
        rw [hcrc] at h
        simp only at h ⊢
        cases hu : unpack (dt.payloadTy (decodeId f.id).service (decodeId f.id).request) (bitsFromBytes bytes) (!(f :: fs).any (·.canfd)) with
        | error e => rw [hu] at h; cases h
        | ok vr =>
          rw [hu] at h
          simp only [pure, Except.pure] at h ⊢
          injection h with h
          subst h
          rfl

theorem bare_key (f : Frame) : f.bare.key = f.key := rfl
theorem bare_sot (f : Frame) : f.bare.sot = f.sot := rfl
theorem bare_eot (f : Frame) : f.bare.eot = f.eot := rfl

/-- The frames of a transfer, whenever they were read, are one completed transfer. -/
theorem completed_of_sent (t t' : OutTransfer) (frames p old : List Frame) (h : toFrames t = .ok (t', frames)) (hb : p.map Frame.bare = frames) :
    Completed (old ++ p) p := by
  obtain ⟨hne, hwf, -⟩ := C13_frame_sequence t t' frames h
  have hlen : p.length = frames.length := by rw [← hb, List.length_map]
  have hget : ∀ i (hi : i < p.length), (p[i].sot = true ↔ i = 0) ∧ (p[i].eot = true ↔ i + 1 = p.length) := by
    intro i hi
    have hi' : i < frames.length := by omega
    obtain ⟨w1, -, w3, w4, -⟩ := hwf i hi'
    have he : frames[i] = p[i].bare := by
      subst hb
      rw [List.getElem_map]
    obtain ⟨-, k1, k2, -⟩ := C21_key_and_flags frames[i] frames[i]
    constructor
    · rw [← bare_sot, ← he, k1, w3]
      simp [w1]
    · rw [← bare_eot, ← he, k2, w4, hlen]
      simp [w1]
  have hpne : p ≠ [] := by rintro rfl; subst hb; exact hne rfl
  refine ⟨⟨⟨old, rfl⟩, ?_⟩, ?_⟩
  · obtain ⟨g, rest, rfl⟩ := List.exists_cons_of_ne_nil hpne
    refine ⟨g, rest, rfl, ?_, ?_⟩
    · exact ((hget 0 (by simp)).1).2 rfl
    · intro x hx
      obtain ⟨i, hi, rfl⟩ := List.getElem_of_mem hx
      have := (hget (i + 1) (by simpa using hi)).1
      rw [List.getElem_cons_succ] at this
      cases hs : rest[i].sot with
      | false => rfl
      | true => exact absurd (this.1 hs) (by omega)
  · refine ⟨p.dropLast, p.getLast hpne, (List.dropLast_concat_getLast hpne).symm, ?_, ?_⟩
    · have hpos := List.length_pos_iff.2 hpne
      rw [List.getLast_eq_getElem]
      exact ((hget (p.length - 1) (by omega)).2).2 (by omega)
    · intro x hx
      obtain ⟨i, hi, rfl⟩ := List.getElem_of_mem hx
      rw [List.length_dropLast] at hi
      rw [List.getElem_dropLast]
      have := (hget i (by omega)).2
      cases hs : p[i].eot with
      | false => rfl
      | true => exact absurd (this.1 hs) (by omega)

theorem arrive_bare {frames : List Frame} {raws : List RawFrame} (h : Arrive frames raws) (hts : ∀ f ∈ frames, f.ts = none) :
    (raws.map RawFrame.toFrame).map Frame.bare = frames := by
  induction h with
  | nil => rfl
  | @cons f r fs rs hw _ ih =>
    rw [List.map_cons, List.map_cons, ih (fun g hg => hts g (List.mem_cons_of_mem _ hg))]
    congr 1
    obtain ⟨w1, w2, w3, w4⟩ := hw
    have := hts f List.mem_cons_self
    cases f
    simp only at w1 w2 w3 this
    simp [Frame.bare, RawFrame.toFrame, w1, w2, w3, this]

/-! ## Sending -/

theorem forEach_frames (n : Nat) (frames : List Frame) (s s' : Node) (h : PyM.forEach frames (sendFrame env n) s = (.ok (), s')) :
    s'.trace = s.trace ++ frames.map (.frame n) := by
  induction frames generalizing s with
  | nil =>
    injection h with _ h
    subst h
    simp
  | cons f fs ih =>
    simp only [PyM.forEach, bind_run] at h
    unfold sendFrame at h
    cases hf : env.txFails s f with
    | some e => rw [hf] at h; cases h
    | none =>
      rw [hf] at h
      have := ih _ h
      rw [this]
      simp

theorem sendTransfer_frames (n : Nat) (p : Payload) (h : Header) (tid : Nat) (canfd : Bool) (s s' : Node) (t' : OutTransfer)
    (hn : n < s.nextNum) (hs : sendTransfer env (hookCall env) n p h tid canfd s = (.ok t', s')) :
    ∃ t frames mid, mkTransfer p.dt h tid p.val canfd = .ok t ∧ toFrames t = .ok (t', frames) ∧ s'.trace = s.trace ++ mid ++ frames.map (.frame n) := by
  simp only [sendTransfer, bind_run, lift_run] at hs
  cases hm : mkTransfer p.dt h tid p.val canfd with
  | error e => rw [hm] at hs; cases hs
  | ok t =>
    rw [hm] at hs
    simp only at hs
    have hu : UserClosed env 0 (fun _ => True) := by constructor <;> intros <;> trivial
    have hk := callHooks_pres (env := env) (hookCall_ok hu) n (.tx t) (Nat.zero_le _) s hn trivial
    cases hc : callHooks env (hookCall env) n (.tx t) s with
    | mk r s1 =>
      rw [hc] at hs hk
      cases r with
      | error e => cases hs
      | ok _ =>
        simp only at hs hk
        cases hf : toFrames t with
        | error e => rw [hf] at hs; cases hs
        | ok tf =>
          obtain ⟨t2, frames⟩ := tf
          rw [hf] at hs
          simp only at hs
          cases hse : PyM.forEach frames (sendFrame env n) s1 with
          | mk r2 s2 =>
            rw [hse] at hs
            cases r2 with
            | error e => cases hs
            | ok _ =>
              injection hs with h1 h2
              injection h1 with h1
              subst h1 h2
              obtain ⟨mid, hmid⟩ := hk.2.1
              exact ⟨t, frames, mid, rfl, hf, by rw [forEach_frames n frames s1 s2 hse, hmid]⟩

/-! ## From node to node -/

/-- A transfer on its way: node B reads the frames of a transfer, interleaved with anything else, after any history. It receives the same
transfer. -/
theorem deliver (dt : DataType) (hdr : Header) (tid : Nat) (v : Val) (fd : Bool) (t t' : OutTransfer) (frames : List Frame)
    (hmk : mkTransfer dt hdr tid v fd = .ok t) (hfr : toFrames t = .ok (t', frames)) (hv : ValidHeader hdr) (hdt : hdr.dtid = dt.dtid)
    (hwf : WfTy (dt.payloadTy hdr.service hdr.request) = true) (hty : hasTy (dt.payloadTy hdr.service hdr.request) v = true)
    (hreg : env.db dt.dtid hdr.service = some dt) (s : Node) (hs : NetInv env s) (pre post : List Ev) (raw : RawFrame) (old : List Frame)
    (first : RawFrame) (rest : List RawFrame) (htr : s.trace = pre ++ .read (some raw) :: post) (hraw : raw.extended = true)
    (hwire : Arrive frames (first :: rest))
    (hkey : ofKey raw.toFrame.key (framesIn (netLog pre) ++ [raw.toFrame]) = old ++ (first :: rest).map RawFrame.toFrame) :
    ∃ mid m post', post = mid ++ .received m (arrived hdr tid first.ts (canon (dt.payloadTy hdr.service hdr.request) v) fd) :: post' ∧
      netLog mid = [] := by
  obtain ⟨u, u', frames', hmk', hfr', hfrom⟩ := C14_end_to_end env.db dt hdr tid v fd hv hdt hreg hwf hty
  rw [hmk] at hmk'
  injection hmk' with hmk'
  subst hmk'
  rw [hfr] at hfr'
  injection hfr' with hfr'
  injection hfr' with h1 h2
  subst h1 h2
  have hts : ∀ f ∈ frames, f.ts = none := by
    obtain ⟨id, _, _, e⟩ := toFrames_ok _ _ _ hfr
    rw [e]
    intro f hf
    exact ((frameLoop_content _ _ _ _ _ _).2.1 f hf).2.2.1
  have hbare := arrive_bare hwire hts
  have hcomp := completed_of_sent _ _ frames ((first :: rest).map RawFrame.toFrame) old hfr hbare
  rw [← hkey] at hcomp
  rw [← hbare] at hfrom
  have hfrom2 := fromFrames_bare env.db first.toFrame (rest.map RawFrame.toFrame) _ hfrom
  have hnet : netLog s.trace = netLog pre ++ .frame raw :: netLog post := by
    rw [htr]
    simp [netLog, netEv]
  obtain ⟨b', hb'⟩ := explained_after hs.2 hnet hraw hcomp hfrom2
  -- find the event
  clear hnet htr
  induction post with
  | nil => cases hb'
  | cons e post ih =>
    cases hne : netEv e with
    | none =>
      have hpost : netLog (e :: post) = netLog post := by simp [netLog, hne]
      rw [hpost] at hb'
      obtain ⟨mid, m, post', rfl, hm⟩ := ih hb'
      exact ⟨e :: mid, m, post', rfl, by simp [netLog, hne]; simpa [netLog] using hm⟩
    | some x =>
      have hpost : netLog (e :: post) = x :: netLog post := by simp [netLog, hne]
      rw [hpost] at hb'
      injection hb' with hx _
      subst hx
      cases e with
      | received m tr =>
        injection hne with hne
        injection hne with hne
        subst hne
        exact ⟨[], m, post, rfl, rfl⟩
      | read f =>
        cases f with
        | none => cases hne
        | some f => cases hne
      | _ => cases hne

theorem understood (dt : DataType) (hdr : Header) (tid : Nat) (v : Val) (fd : Bool) (t t' : OutTransfer) (frames : List Frame)
    (hmk : mkTransfer dt hdr tid v fd = .ok t) (hfr : toFrames t = .ok (t', frames)) (hv : ValidHeader hdr) (hdt : hdr.dtid = dt.dtid)
    (hwf : WfTy (dt.payloadTy hdr.service hdr.request) = true) (hty : hasTy (dt.payloadTy hdr.service hdr.request) v = true) :
    Understood dt hdr.service frames (fun ts => arrived hdr tid ts (canon (dt.payloadTy hdr.service hdr.request) v) fd) := by
  intro env ops nid t0 iv ce fd0 it pre post raw first rest old hops hreg htr hx hw hkey
  exact deliver dt hdr tid v fd t t' frames hmk hfr hv hdt hwf hty hreg _ (run_inv ops hops _ (init_inv nid t0 iv ce fd0 it)) pre post raw old
    first rest htr hx hw hkey

/-- What remains of a transmission that returned. -/
theorem sent_understood (n : Nat) (p : Payload) (hdr : Header) (tid : Nat) (fd : Bool) (s s' : Node) (t' : OutTransfer) (hn : n < s.nextNum)
    (hv : ValidHeader { hdr with dtid := p.dt.dtid }) (hwf : WfTy (p.dt.payloadTy hdr.service hdr.request) = true)
    (hty : hasTy (p.dt.payloadTy hdr.service hdr.request) p.val = true)
    (hs : sendTransfer env (hookCall env) n p hdr tid fd s = (.ok t', s')) :
    ∃ mid frames, s'.trace = s.trace ++ mid ++ frames.map (.frame n) ∧
      Understood p.dt hdr.service frames (fun ts =>
        arrived { hdr with dtid := p.dt.dtid } tid ts (canon (p.dt.payloadTy hdr.service hdr.request) p.val) fd) := by
  obtain ⟨t, frames, mid, hmk, hfr, htr⟩ := sendTransfer_frames n p hdr tid fd s s' t' hn hs
  exact ⟨mid, frames, htr, understood p.dt { hdr with dtid := p.dt.dtid } tid p.val fd t t' frames hmk hfr hv rfl hwf hty⟩

/-- A broadcast that returns has handed to the driver frames from which every node understands the message sent. -/
theorem C91_broadcast (p : Payload) (prio : Option Nat) (canfd : Option Bool) (s s' : Node) (v : Nat) (hid : s.nodeId = some (v + 1))
    (hv : v + 1 < 128) (hp : effPrio prio < 32) (hd : p.dt.dtid < 65536) (hwf : WfTy (p.dt.payloadTy false false) = true)
    (hty : hasTy (p.dt.payloadTy false false) p.val = true)
    (hs : broadcast env (hookCall env) p prio canfd s = (.ok (), s')) :
    ∃ mid frames, s'.trace = s.trace ++ mid ++ frames.map (.frame s.nextNum) ∧
      Understood p.dt false frames (fun ts =>
        arrived { prio := effPrio prio, dtid := p.dt.dtid, source := v + 1 } ((s.tids.get? (.msg p.dt.dtid)).getD 0) ts
          (canon (p.dt.payloadTy false false) p.val) (canfd.getD s.sendCanfd)) := by
  simp only [broadcast, bind_run, get_run, acceptTid, hid] at hs
  split at hs
  · rename_i t' s1 h1
    injection hs with _ hs
    subst hs
    obtain ⟨mid, frames, htr, hu⟩ := sent_understood s.nextNum p { prio := effPrio prio, source := v + 1 } _ _ _ _ t' (Nat.lt_succ_self _)
      (.message _ _ _ hp hd (Nat.succ_le_succ (Nat.zero_le v)) hv) hwf hty h1
    refine ⟨.accepted s.nextNum ⟨.broadcast, p.dt.dtid, (s.tids.get? (.msg p.dt.dtid)).getD 0, prio, v + 1⟩ :: mid, frames, ?_, hu⟩
    rw [htr]
    simp only [List.append_assoc, List.cons_append, List.nil_append]
  · cases hs

/-- A request that returns: the same, for the node it is meant for and for all others. -/
theorem C91_request (p : Payload) (dest : Nat) (prio : Option Nat) (timeout : Option Int) (canfd : Option Bool) (s s' : Node) (v : Nat)
    (hid : s.nodeId = some (v + 1)) (hv : v + 1 < 128) (hdest : 1 ≤ dest) (hdest' : dest < 128) (hp : effPrio prio < 32)
    (hd : p.dt.dtid < 256) (hwf : WfTy (p.dt.payloadTy true true) = true) (hty : hasTy (p.dt.payloadTy true true) p.val = true)
    (hs : request env (hookCall env) p dest prio timeout canfd s = (.ok (), s')) :
    ∃ mid frames r deadline, s'.trace = s.trace ++ mid ++ frames.map (.frame s.nextNum) ++
        [.requested r s.nextNum
          { prio := effPrio prio, dtid := p.dt.dtid, source := v + 1, dest := some dest, service := true, request := true }
          ((s.tids.get? (.svc p.dt.dtid dest)).getD 0) deadline] ∧
      Understood p.dt true frames (fun ts =>
        arrived { prio := effPrio prio, dtid := p.dt.dtid, source := v + 1, dest := some dest, service := true, request := true }
          ((s.tids.get? (.svc p.dt.dtid dest)).getD 0) ts (canon (p.dt.payloadTy true true) p.val) (canfd.getD s.sendCanfd)) := by
  simp only [request, bind_run, get_run, acceptTid, hid] at hs
  split at hs
  · rename_i t' s1 h1
    obtain ⟨mid, frames, htr, hu⟩ := sent_understood s.nextNum p
      { prio := effPrio prio, source := v + 1, dest := some dest, service := true, request := true } _ _ _ _ t' (Nat.lt_succ_self _)
      (.service _ _ _ _ _ hp hd hv hdest hdest') hwf hty h1
    obtain ⟨t, frames', _, hmk, hfr, _⟩ := sendTransfer_frames _ _ _ _ _ _ _ _ (Nat.lt_succ_self _) h1
    obtain ⟨id, henc, ht', _⟩ := toFrames_ok _ _ _ hfr
    have hm : t.header = { prio := effPrio prio, dtid := p.dt.dtid, source := v + 1, dest := some dest, service := true, request := true } ∧
        t.tid = (s.tids.get? (.svc p.dt.dtid dest)).getD 0 := by
      simp only [mkTransfer, bind, Except.bind] at hmk
      split at hmk
      · cases hmk
      · injection hmk with hmk
        subst hmk
        exact ⟨rfl, rfl⟩
    have hh : t'.header = t.header ∧ t'.tid = t.tid := by rw [ht']; exact ⟨rfl, rfl⟩
    simp only [lift_run, hh.1, henc, registerRequest] at hs
    injection hs with _ hs
    subst hs
    refine ⟨.accepted s.nextNum ⟨.request dest, p.dt.dtid, (s.tids.get? (.svc p.dt.dtid dest)).getD 0, prio, v + 1⟩ :: mid, frames, s1.nextReq,
      s1.now + effTimeout timeout, ?_, hu⟩
    show s1.trace ++ [.requested s1.nextReq s.nextNum t.header t'.tid _] = _
    rw [htr, hh.2, hm.1, hm.2]
    simp only [List.append_assoc, List.cons_append, List.nil_append]
  · cases hs

/-- A response that returns. -/
theorem C91_respond (p : Payload) (dest tid : Nat) (prio : Option Nat) (canfd : Option Bool) (s s' : Node) (v : Nat)
    (hid : s.nodeId = some (v + 1)) (hv : v + 1 < 128) (hdest : 1 ≤ dest) (hdest' : dest < 128) (hp : prio.getD 31 < 32)
    (hd : p.dt.dtid < 256) (hwf : WfTy (p.dt.payloadTy true false) = true) (hty : hasTy (p.dt.payloadTy true false) p.val = true)
    (hs : respond env (hookCall env) p dest tid prio canfd s = (.ok (), s')) :
    ∃ mid frames, s'.trace = s.trace ++ mid ++ frames.map (.frame s.nextNum) ∧
      Understood p.dt true frames (fun ts =>
        arrived { prio := prio.getD 31, dtid := p.dt.dtid, source := v + 1, dest := some dest, service := true } tid ts
          (canon (p.dt.payloadTy true false) p.val) (canfd.getD s.sendCanfd)) := by
  simp only [respond, bind_run, get_run, acceptResponse, hid] at hs
  split at hs
  · rename_i t' s1 h1
    injection hs with _ hs
    subst hs
    obtain ⟨mid, frames, htr, hu⟩ := sent_understood s.nextNum p
      { prio := prio.getD 31, source := v + 1, dest := some dest, service := true, request := false } _ _ _ _ t' (Nat.lt_succ_self _)
      (.service _ _ _ _ _ hp hd hv hdest hdest') hwf hty h1
    refine ⟨.accepted s.nextNum ⟨.response dest, p.dt.dtid, tid, prio, v + 1⟩ :: mid, frames, ?_, hu⟩
    rw [htr]
    simp only [List.append_assoc, List.cons_append, List.nil_append]
  · cases hs

/-- No transfer is received that was not completed by the frame read last. -/
theorem C91_only (ops : List Op) (hops : Public ops) (nid : Option Nat) (t : Int) (iv : Option Int) (ce fd : Bool) (it : Nat × Bool)
    (a b : List NetEv) (tr : InTransfer) (h : netLog (run env ops (init nid t iv ce fd it)).trace = a ++ .transfer tr :: b) :
    ∃ a' raw p, a = a' ++ [.frame raw] ∧ raw.extended = true ∧
      Completed (ofKey raw.toFrame.key (framesIn a' ++ [raw.toFrame])) p ∧ fromFrames env.db p = .ok tr := by
  have h0 := C91_received (env := env) ops hops nid t iv ce fd it
  rw [h] at h0
  exact explained_before h0 rfl

/-! An example: node 5 broadcasts ten bytes, in two frames; node 9 reads them with a frame of another transfer between them. -/

def tenTy : DataType := { dtid := 1000, baseCrc := 0x1234#16, msg := .comp false [.arr (.prim ⟨.unsigned, 8, true⟩) false 10] }

def tenVal : Val := .comp none [.arr ((List.range 10).map fun i => .prim ((List.range 8).map (i.testBit ·)))]

def netEnv : Env where
  db d sv := if d = 1000 ∧ sv = false then some tenTy else none
  script _ _ := {}
  statusPayload _ := { dt := { dtid := 341, baseCrc := 0, msg := .comp false [] }, val := .comp none [] }
  infoPayload _ := { dt := { dtid := 1, baseCrc := 0, msg := .comp false [] }, val := .comp none [] }
  lim := 3

/-- The frames that the broadcast hands to the driver. -/
def tenFrames : List RawFrame :=
  (broadcast netEnv (hookCall netEnv) { dt := tenTy, val := tenVal } none none (init (some 5) 0 none true false (1, true))).2.trace.filterMap fun
    | .frame _ f => some { id := f.id, data := f.bytes, ts := some 77, canfd := f.canfd }
    | _ => none

/-- A history of node 9. -/
def tenOps (other : RawFrame) : List Op :=
  [.api (.addHandler none false), .spin0 ([tenFrames[0]?, some other] ++ [tenFrames[1]?]) [0], .poll [5]]

example : tenFrames.length = 2 := by decide +kernel
example : (broadcast netEnv (hookCall netEnv) { dt := tenTy, val := tenVal } none none (init (some 5) 0 none true false (1, true))).1 = .ok () := by
  decide +kernel
example : Public (tenOps ⟨3, [0x80#8], true, none, false⟩) := by
  intro f h
  simp [tenOps] at h

/-- The kinds of the events. -/
def NetEv.kind : NetEv → Nat × Option Int
  | .frame raw => (raw.data.length, raw.ts)
  | .transfer tr => (1000 + tr.header.source, tr.ts)

example : (netLog (run netEnv (tenOps ⟨3, [0x80#8], true, none, false⟩) (init (some 9) 0 none true false (1, true))).trace).map NetEv.kind =
    [(8, some 77), (1, none), (5 + 1, some 77), (1005, some 77)] := by decide +kernel

end Dronecan
