import Verif.Spec.ClientServer
import Verif.Lemmas.Client
import Verif.Props.Response
import Verif.Props.Client

/-! # The client's server backend -/

namespace Hop

open Spec Client.Server

theorem remote_built_ok {α} {r : Builder.Res} {b : Builder} (h : r = (.ok (), b)) (f : Builder → Job α) :
    Client.Server.built r f = f b := by subst h; rfl

theorem remote_built_err {α} {r : Builder.Res} {b : Builder} {e : BuilderError} (h : r = (.err e, b))
    (f : Builder → Job α) : Client.Server.built r f = ([], .err (.buildingRequest e)) := by subst h; rfl

theorem wrapRemote_built {α} (F : α → Got) (r : Builder.Res) (f : Builder → Job α) :
    wrapRemote F (Client.Server.built r f) = Client.Server.built r (fun b => wrapRemote F (f b)) := by
  obtain ⟨r, b⟩ := r
  cases r <;> rfl

/-- What a call makes of what is handed over. -/
def readRemote (a : Api) (r : Job Value) : Job Got :=
  (r.1, match r.2 with
    | .ok v => a.reads v
    | .err e => .err e
    | .panic => .panic
    | .stuck => .stuck)

/-- Wrap the result. -/
def liftRemote {α} (F : α → Got) : Outcome Error α → Outcome Error Got
  | .ok a => .ok (F a)
  | .err e => .err e
  | .panic => .panic
  | .stuck => .stuck

theorem reads_bind {α} (a : Api) (F : α → Got) (f : Value → Outcome Error α) (h : ∀ v, liftRemote F (f v) = a.reads v)
    (ask : Bytes → Job Value) (b : Builder) {w : Bytes} (hb : b.buf = w) :
    wrapRemote F (Client.Server.bind (ask b.buf) f) = readRemote a (ask w) := by
  subst hb
  unfold wrapRemote Client.Server.bind readRemote
  cases hr : (ask b.buf).2 with
  | ok v =>
    simp only [← h v]
    cases f v <;> rfl
  | _ => rfl

theorem reads_plain (a : Api) (h : ∀ v, a.reads v = .ok (.value v))
    (ask : Bytes → Job Value) (b : Builder) {w : Bytes} (hb : b.buf = w) :
    wrapRemote Got.value (ask b.buf) = readRemote a (ask w) := by
  subst hb
  unfold wrapRemote readRemote
  cases hr : (ask b.buf).2 with
  | ok v => simp only [h v]
  | _ => rfl

theorem low_byte (i : Int64) : i.toUInt64.toNat % 256 = (i.toInt % 256).toNat := by
  rw [toUInt64_toNat_eq]
  omega

theorem Api.serveBy_eq (env : Env) (ask : Bytes → Job Value) (a : Api) (hn : (a.call env).args.length ≤ 255) :
    a.serveBy env (fun b => ask b.intoRequest.buf) = match a.refusalRemote with
      | some e => ([], .err e)
      | none => readRemote a (ask (a.remote env).wire) := by
  have one : ∀ (a : Api) (cmd : CommandId) (kt : Option KeyType) (k : Bytes) (g : Builder → Job Got),
      cmd.isSimple = false → cmd ≠ .stats → a.remote env = ⟨cmd, kt, [k]⟩ →
      a.refusalRemote = (if k = [] then some (.buildingRequest .argumentEmpty) else none) →
      a.serveBy env (fun b => ask b.intoRequest.buf) = Client.Server.built ((Builder.newWithKeyType cmd kt).bytes env.mode k) g →
      (∀ b w, b.buf = w → g b = readRemote a (ask w)) →
      a.serveBy env (fun b => ask b.intoRequest.buf) = match a.refusalRemote with
        | some e => ([], .err e)
        | none => readRemote a (ask (a.remote env).wire) := by
    intro a cmd kt k g hc hs hcall href hstart hg
    rw [href, hstart]
    by_cases hk : k = []
    · subst hk; rfl
    · obtain ⟨b, h1, h2⟩ := one_arg env.mode cmd kt k hc hk
      simp only [if_neg hk]
      rw [remote_built_ok h1]
      refine hg b _ ?_
      rw [hcall, Call.wire, if_neg hs, h2.buf]
  cases a with
  | decrement k t =>
    refine one _ .decrement t k _ rfl (by decide) rfl rfl (wrapRemote_built _ _ _) ?_
    intro b w hb; exact reads_bind _ _ _ (by intro v; cases v <;> rfl) ask _ hb
  | increment k t =>
    refine one _ .increment none k _ rfl (by decide) rfl rfl
      (by simp only [Api.serveBy, Client.Server.increment, Builder.new_eq]; exact wrapRemote_built _ _ _) ?_
    intro b w hb; exact reads_bind _ _ _ (by intro v; cases v <;> rfl) ask _ hb
  | delete k =>
    refine one _ .delete none k _ rfl (by decide) rfl rfl
      (by simp only [Api.serveBy, Client.Server.delete, Builder.new_eq]; exact wrapRemote_built _ _ _) ?_
    intro b w hb; exact reads_bind _ _ _ (by intro v; cases v <;> rfl) ask _ hb
  | echo k =>
    refine one _ .echo none k _ rfl (by decide) rfl rfl
      (by simp only [Api.serveBy, Client.Server.echo, Builder.new_eq]; exact wrapRemote_built _ _ _) ?_
    intro b w hb; exact reads_bind _ _ _ (by intro v; cases v <;> rfl) ask _ hb
  | get k =>
    refine one _ .get none k _ rfl (by decide) rfl rfl
      (by simp only [Api.serveBy, Client.Server.get, Builder.new_eq]; exact wrapRemote_built _ _ _) ?_
    intro b w hb; exact reads_plain _ (fun v => rfl) ask _ hb
  | keyType k =>
    refine one _ .type none k _ rfl (by decide) rfl rfl
      (by simp only [Api.serveBy, Client.Server.keyType, Builder.new_eq]; exact wrapRemote_built _ _ _) ?_
    intro b w hb
    refine reads_bind _ _ _ ?_ ask _ hb
    intro v
    cases v with
    | integer i =>
      simp only [asKeyType, Api.reads, low_byte]
      cases KeyType.ofByte (UInt8.ofNat (i.toInt % 256).toNat) <;> rfl
    | _ => rfl
  | keys k =>
    refine one _ .keys none k _ rfl (by decide) rfl rfl
      (by simp only [Api.serveBy, Client.Server.keys, Builder.new_eq]; exact wrapRemote_built _ _ _) ?_
    intro b w hb; exact reads_bind _ _ _ (by intro v; cases v <;> rfl) ask _ hb
  | length k t =>
    refine one _ .length t k _ rfl (by decide) rfl rfl (wrapRemote_built _ _ _) ?_
    intro b w hb; exact reads_bind _ _ _ (by intro v; cases v <;> rfl) ask _ hb
  | stats => exact reads_bind _ _ _ (by intro v; cases v <;> rfl) ask _ rfl
  | rename x y =>
    simp only [Api.refusalRemote]
    by_cases hx : x = []
    · subst hx; rfl
    · obtain ⟨b1, h1, h2⟩ := one_arg env.mode .rename none x rfl hx
      by_cases hy : y = []
      · subst hy
        simp only [or_true, if_true]
        simp only [Api.serveBy, Client.Server.rename, Builder.new_eq, wrapRemote_built, remote_built_ok h1, bytes_nil]
        rfl
      · obtain ⟨b2, h3, h4⟩ := h2.bytes env.mode y (by simp) hy
        simp only [hx, hy, or_self, if_false]
        simp only [Api.serveBy, Client.Server.rename, Builder.new_eq, wrapRemote_built, remote_built_ok h1,
          remote_built_ok h3]
        exact reads_bind _ _ _ (by intro v; cases v <;> rfl) ask _ h4.buf
  | «exists» ks =>
    simp only [Api.refusalRemote]
    have h0 := BInv.new .exists none rfl
    by_cases hk : [] ∈ ks
    · obtain ⟨b, hb⟩ := bytesAll_empty h0 env.mode ks (by simpa [Api.call] using hn) hk
      simp only [if_pos hk]
      simp only [Api.serveBy, Client.Server.exists, Builder.new_eq, wrapRemote_built, remote_built_err hb]; rfl
    · obtain ⟨b, h1, h2⟩ := h0.bytesAll env.mode ks (by simpa [Api.call] using hn)
        (fun a ha h => hk (h ▸ ha))
      simp only [if_neg hk]
      simp only [Api.serveBy, Client.Server.exists, Builder.new_eq, wrapRemote_built, remote_built_ok h1]
      exact reads_bind _ _ _ (by intro v; cases v <;> rfl) ask _ h2.buf
  | is t ks =>
    simp only [Api.refusalRemote]
    have h0 := BInv.new .is (some t) rfl
    by_cases hk : [] ∈ ks
    · obtain ⟨b, hb⟩ := bytesAll_empty h0 env.mode ks (by simpa [Api.call] using hn) hk
      simp only [if_pos hk]
      simp only [Api.serveBy, Client.Server.is, wrapRemote_built, remote_built_err hb]; rfl
    · obtain ⟨b, h1, h2⟩ := h0.bytesAll env.mode ks (by simpa [Api.call] using hn)
        (fun a ha h => hk (h ▸ ha))
      simp only [if_neg hk]
      simp only [Api.serveBy, Client.Server.is, wrapRemote_built, remote_built_ok h1]
      exact reads_bind _ _ _ (by intro v; cases v <;> rfl) ask _ h2.buf
  | set k v =>
    simp only [Api.refusalRemote]
    simp only [Api.call, List.length_cons, spelled_length] at hn
    by_cases hk : k = []
    · subst hk; rfl
    · obtain ⟨b1, h1, h2⟩ := one_arg env.mode .set (some v.kind) k rfl hk
      simp only [if_neg hk]
      by_cases hv : acceptable v
      · obtain ⟨b2, h3, h4⟩ := h2.value env v (by simp; omega) hv
        simp only [(hollow_iff v).mpr hv]
        simp only [Api.serveBy, Client.Server.set, wrapRemote_built, remote_built_ok h1, remote_built_ok h3]
        refine reads_plain _ (fun v => rfl) ask _ ?_
        rw [h4.buf]
        simp [Api.remote, Api.call, Call.wire, spelled_eq]
      · obtain ⟨b2, h3⟩ := value_hollow h2 env v (by simp; omega) hv
        have : hollow v = true := by
          cases h : hollow v with
          | true => rfl
          | false => exact absurd ((hollow_iff v).mp h) hv
        simp only [this, if_true]
        simp only [Api.serveBy, Client.Server.set, wrapRemote_built, remote_built_ok h1, remote_built_err h3]; rfl
  | incrementBy k v =>
    simp only [Api.refusalRemote]
    have fin : ∀ hv : acceptable v, numeric v.kind = true → argsOf v = 1 →
        ¬ (v.kind ≠ .float ∧ v.kind ≠ .integer) →
        (Api.incrementBy k v).serveBy env (fun b => ask b.intoRequest.buf) = match (if k = [] then some (Error.buildingRequest .argumentEmpty) else none) with
          | some e => ([], .err e)
          | none => readRemote (.incrementBy k v) (ask ((Api.incrementBy k v).remote env).wire) := by
      intro hv hnum hone hkind
      by_cases hk : k = []
      · subst hk
        simp only [Api.serveBy, Client.Server.incrementBy, if_neg hkind]
        rfl
      · obtain ⟨b1, h1, h2⟩ := one_arg env.mode .incrementBy (some v.kind) k rfl hk
        obtain ⟨b2, h3, h4⟩ := h2.value env v (by simp [hone]) hv
        simp only [if_neg hk]
        simp only [Api.serveBy, Client.Server.incrementBy, if_neg hkind, wrapRemote_built, remote_built_ok h1,
          remote_built_ok h3]
        refine reads_bind _ _ _ (by intro v; cases v <;> rfl) ask _ ?_
        rw [h4.buf]
        simp [Api.remote, Api.call, Call.wire, spelled_eq]
    cases v with
    | float f => exact fin trivial rfl rfl (by simp [Value.kind])
    | integer f => exact fin trivial rfl rfl (by simp [Value.kind])
    | _ => rfl
  | decrementBy k v =>
    simp only [Api.refusalRemote]
    by_cases hk : k = []
    · subst hk; rfl
    · obtain ⟨b1, h1, h2⟩ := one_arg env.mode .decrementBy (some v.kind) k rfl hk
      simp only [if_neg hk]
      have fin : ∀ hv : acceptable v, numeric v.kind = true → argsOf v = 1 →
          ¬ (v.kind ≠ .float ∧ v.kind ≠ .integer) →
          (Api.decrementBy k v).serveBy env (fun b => ask b.intoRequest.buf) = readRemote (.decrementBy k v) (ask ((Api.decrementBy k v).remote env).wire) := by
        intro hv hnum hone hkind
        obtain ⟨b2, h3, h4⟩ := h2.value env v (by simp [hone]) hv
        simp only [Api.serveBy, Client.Server.decrementBy, wrapRemote_built, remote_built_ok h1, if_neg hkind,
          remote_built_ok h3]
        refine reads_bind _ _ _ (by intro v; cases v <;> rfl) ask _ ?_
        rw [h4.buf]
        simp [Api.remote, Api.call, Call.wire, spelled_eq]
      cases v with
      | float f => exact fin trivial rfl rfl (by simp [Value.kind])
      | integer f => exact fin trivial rfl rfl (by simp [Value.kind])
      | _ => simp only [Api.serveBy, Client.Server.decrementBy, wrapRemote_built, remote_built_ok h1]; rfl
  | append k v =>
    simp only [Api.refusalRemote]
    simp only [Api.call, List.length_cons, spelled_length] at hn
    by_cases hk : k = []
    · subst hk; rfl
    · obtain ⟨b1, h1, h2⟩ := one_arg env.mode .append (some v.kind) k rfl hk
      simp only [if_neg hk]
      cases v with
      | bytes x =>
        by_cases hx : x = []
        · subst hx
          simp only [Api.serveBy, Client.Server.append, wrapRemote_built, remote_built_ok h1]; rfl
        · obtain ⟨b2, h3, h4⟩ := h2.bytes env.mode x (by simp) hx
          simp only [Value.kind, appendable, hollow]
          simp only [Bool.not_true, Bool.false_eq_true, if_false, List.isEmpty_iff, hx]
          simp only [Api.serveBy, Client.Server.append, wrapRemote_built, remote_built_ok h1, remote_built_ok h3]
          exact reads_plain _ (fun v => rfl) ask _ h4.buf
      | string x =>
        by_cases hx : x = []
        · subst hx
          simp only [Api.serveBy, Client.Server.append, wrapRemote_built, remote_built_ok h1]; rfl
        · obtain ⟨b2, h3, h4⟩ := h2.bytes env.mode (strBytes x) (by simp) (by simpa [strBytes_eq_nil] using hx)
          simp only [Value.kind, appendable, hollow]
          simp only [Bool.not_true, Bool.false_eq_true, if_false, List.isEmpty_iff, hx]
          simp only [Api.serveBy, Client.Server.append, wrapRemote_built, remote_built_ok h1, remote_built_ok h3]
          exact reads_plain _ (fun v => rfl) ask _ h4.buf
      | list l =>
        simp only [argsOf] at hn
        by_cases hl : [] ∈ l
        · obtain ⟨b2, h3⟩ := bytesAll_empty h2 env.mode l (by simp; omega) hl
          have : hollow (.list l) = true := by
            simp only [hollow, List.any_eq_true, List.isEmpty_iff]
            exact ⟨[], hl, rfl⟩
          simp only [Value.kind, appendable, this]
          simp only [Bool.not_true, Bool.false_eq_true, if_false, if_true]
          simp only [Api.serveBy, Client.Server.append, wrapRemote_built, remote_built_ok h1, remote_built_err h3]; rfl
        · obtain ⟨b2, h3, h4⟩ := h2.bytesAll env.mode l (by simp; omega) (fun a ha h => hl (h ▸ ha))
          have : hollow (.list l) = false := by
            rw [hollow_iff]
            exact fun a ha h => hl (h ▸ ha)
          simp only [Value.kind, appendable, this]
          simp only [Bool.not_true, Bool.false_eq_true, if_false]
          simp only [Api.serveBy, Client.Server.append, wrapRemote_built, remote_built_ok h1, remote_built_ok h3]
          exact reads_plain _ (fun v => rfl) ask _ h4.buf
      | _ => simp only [Api.serveBy, Client.Server.append, wrapRemote_built, remote_built_ok h1]; rfl

/-- What sending a request amounts to. -/
def exchanged (fuel : Nat) (c : Conn) (w : Bytes) : Job Got :=
  ((writeAll c.room w).1,
    if (writeAll c.room w).2 then (if fuel = 0 then .stuck else .err .connectionClosed) else .err .writingMessage)

theorem sendAndWait_eq (m : Mode) (fuel : Nat) (c : Conn) (b : Builder) :
    sendAndWait m fuel c b = ((writeAll c.room b.buf).1,
      if (writeAll c.room b.buf).2 then (if fuel = 0 then .stuck else .err .connectionClosed)
      else .err .writingMessage) := by
  unfold sendAndWait
  cases fuel <;> rfl

theorem exchanged_bind {α} (F : α → Got) (m : Mode) (fuel : Nat) (c : Conn) (b : Builder) (f : Value → Outcome Error α)
    {w : Bytes} (hb : b.buf = w) :
    wrapRemote F (Client.Server.bind (sendAndWait m fuel c b) f) = exchanged fuel c w := by
  subst hb
  rw [sendAndWait_eq, exchanged]
  cases hw : (writeAll c.room b.buf).2 <;> cases fuel <;> simp [wrapRemote, Client.Server.bind]

theorem exchanged_plain (m : Mode) (fuel : Nat) (c : Conn) (b : Builder) {w : Bytes} (hb : b.buf = w) :
    wrapRemote Got.value (sendAndWait m fuel c b) = exchanged fuel c w := by
  subst hb
  rw [sendAndWait_eq, exchanged]
  cases hw : (writeAll c.room b.buf).2 <;> cases fuel <;> simp [wrapRemote, Client.Server.bind]

theorem readRemote_serve (env : Env) (fuel : Nat) (c : Conn) (a : Api) (w : Bytes) (m : Mode) :
    readRemote a ((writeAll c.room w).1,
      if (writeAll c.room w).2 then (if fuel = 0 then .stuck else .err .connectionClosed) else .err .writingMessage) =
    exchanged fuel c w := by
  unfold readRemote exchanged
  cases (writeAll c.room w).2 <;> cases fuel <;> rfl

theorem Api.serve_eq (env : Env) (fuel : Nat) (c : Conn) (a : Api) (hn : (a.call env).args.length ≤ 255) :
    a.serve env fuel c = match a.refusalRemote with
      | some e => ([], .err e)
      | none => exchanged fuel c (a.remote env).wire := by
  have h := Api.serveBy_eq env (fun w => ((writeAll c.room w).1,
    if (writeAll c.room w).2 then (if fuel = 0 then .stuck else .err .connectionClosed) else .err .writingMessage)) a hn
  have e : (sendAndWait env.mode fuel c) = fun b : Builder => ((writeAll c.room b.intoRequest.buf).1,
      if (writeAll c.room b.intoRequest.buf).2 then (if fuel = 0 then .stuck else .err .connectionClosed)
      else .err .writingMessage) := by
    funext b
    exact sendAndWait_eq env.mode fuel c b
  unfold Api.serve
  rw [e, h]
  simp only [readRemote_serve env fuel c a _ env.mode]

/-! ## C67 What a call on the server backend does -/

/-- C67. A refused call sends nothing and resolves to the error saying so, whatever the connection. -/
theorem C67_refused (env : Env) (fuel : Nat) (c : Conn) (a : Api) (hn : (a.call env).args.length ≤ 255)
    {e : Error} (h : a.refusalRemote = some e) : a.serve env fuel c = ([], .err e) := by
  rw [Api.serve_eq env fuel c a hn, h]

/-- C67. Any other call, on a connection with room for it, sends exactly the bytes of the command it
stands for, reads nothing, and resolves to `ConnectionClosed` after one round of its loop, whatever the
server answers. -/
theorem C67_closed (env : Env) (fuel : Nat) (room : Option Nat) (incoming : Bytes) (a : Api)
    (hn : (a.call env).args.length ≤ 255) (h : a.refusalRemote = none)
    (hr : ∀ n, room = some n → (a.remote env).wire.length ≤ n) :
    a.serve env (fuel + 1) ⟨room, incoming⟩ = ((a.remote env).wire, .err .connectionClosed) := by
  rw [Api.serve_eq env _ _ a hn, h]
  cases room with
  | none => simp [exchanged, writeAll]
  | some n =>
    have := hr n rfl
    simp [exchanged, writeAll, this, List.take_of_length_le]

/-- C67. If the connection fails before all bytes of the command are written, those until then are sent, and the
call resolves to the error saying so. -/
theorem C67_unwritable (env : Env) (fuel n : Nat) (incoming : Bytes) (a : Api) (hn : (a.call env).args.length ≤ 255)
    (h : a.refusalRemote = none) (hr : n < (a.remote env).wire.length) :
    a.serve env fuel ⟨some n, incoming⟩ = ((a.remote env).wire.take n, .err .writingMessage) := by
  rw [Api.serve_eq env _ _ a hn, h]
  simp [exchanged, writeAll, Nat.not_le.mpr hr]

example : (Api.increment [107] (some .float)).serve (sampleEnv .debug) 1 ⟨some 7, [0, 0, 0, 9]⟩ =
    ([0, 1, 0, 0, 0, 1, 107], .err .connectionClosed) := by decide +kernel

example : (Api.increment [107] (some .float)).serve (sampleEnv .debug) 1 ⟨some 6, []⟩ =
    ([0, 1, 0, 0, 0, 1], .err .writingMessage) := by decide +kernel

/-! ## C44 The server's answer -/

/-- C44 as stated: if the server answers with the frame of a value of the type the call promises, the call
resolves to it once it is given enough rounds. -/
def C44_Statement : Prop :=
  ∀ (env : Env) (a : Api) (v : Value) (g : Got) (out : Bytes), (a.call env).args.length ≤ 255 →
    a.refusalRemote = none → FitsValue env.mode v → Response.asBytes env (.value v) = some out →
    a.understood (orderedValue env v) = some g →
    ∃ fuel, (a.serve env fuel ⟨none, out⟩).2 = .ok g

/-- The statement of C44 is false: no call ever resolves to anything but an error. -/
theorem C44_false : ¬ C44_Statement := by
  intro h
  obtain ⟨fuel, hf⟩ := h (sampleEnv .release) (.get [107]) (.boolean true) (.value (.boolean true))
    [0, 0, 0, 2, 0, 1] (by decide) (by decide) trivial (by decide +kernel) rfl
  cases fuel with
  | zero => revert hf; decide +kernel
  | succ n =>
    rw [C67_closed _ _ _ _ _ (by decide) (by decide) (by simp)] at hf
    simp at hf

/-- C44, the part that holds: the decoder a call would use concludes with the server's response on these
bytes. Missing: the bytes never reach it, because the buffer that is read into has length 0 (C67). -/
theorem C44_decodes_partial (env : Env) (v : Value) (hv : FitsValue env.mode v) :
    ∃ out w c', Response.asBytes env (.value v) = some out ∧ Same w v ∧
      RespParser.feed env.mode .new out = (.concluded (.value w), c') := by
  obtain ⟨out, r', h1, h2, h3⟩ := C11_round_trip_partial env (.value v) [] hv
  cases r' with
  | value w => exact ⟨out, w, _, h1, h3, by simpa using h2⟩
  | _ => simp [SameResponse] at h3

/-! ## C145 What a call makes of a response -/

/-- C145. Whatever is put in the place of the exchange with the server: a call that is not refused hands over the bytes of the
command it stands for, once, and makes of the value it is handed what `reads` says; errors are passed on. -/
theorem C145_reads (env : Env) (ask : Bytes → Job Value) (a : Api) (hn : (a.call env).args.length ≤ 255) :
    a.serveBy env (fun b => ask b.intoRequest.buf) = match a.refusalRemote with
      | some e => ([], .err e)
      | none => ((ask (a.remote env).wire).1, match (ask (a.remote env).wire).2 with
        | .ok v => a.reads v
        | .err e => .err e
        | .panic => .panic
        | .stuck => .stuck) := by
  rw [Api.serveBy_eq env ask a hn]
  cases a.refusalRemote <;> rfl

theorem reads_understood {a : Api} {v : Value} {g : Got} (h : a.understood v = some g) : a.reads v = .ok g := by
  have other : ∀ o : Option Got, o = some g →
      (match o with | some g => .ok g | none => .err .badResponse : Outcome Error Got) = .ok g := by
    rintro _ rfl; rfl
  cases a with
  | keyType k =>
    cases v with
    | integer i =>
      simp only [Api.understood] at h
      split at h
      · rename_i hi
        have e : (i.toInt % 256).toNat = i.toInt.toNat := by omega
        simp only [Option.map_eq_some_iff] at h
        obtain ⟨t, ht, rfl⟩ := h
        simp only [Api.reads, e, ht]
      · cases h
    | _ => exact other _ h
  | _ => exact other _ h

/-- The command a call sends is the one some call stands for, whose answers are understood alike. -/
theorem Api.remote_call (env : Env) (a : Api) : ∃ b : Api, a.remote env = b.call env ∧ b.understood = a.understood := by
  cases a with
  | increment k t =>
    refine ⟨.increment k none, rfl, ?_⟩
    funext v
    cases v <;> rfl
  | _ => exact ⟨_, rfl, rfl⟩

/-- C145. If the exchange hands over the engine's answer to the bytes it was given, a call that is not refused resolves to what
the in-memory backend gives its caller for that answer; the engine's error and a closed connection are reported. -/
theorem C145_given (env : Env) (a : Api) (db : Db) (hn : (a.call env).args.length ≤ 255) (h : a.refusalRemote = none) :
    (a.serveBy env fun b => (b.intoRequest.buf, handed env (perform env (a.remote env) db).1)).1 = (a.remote env).wire ∧
    match (perform env (a.remote env) db).1 with
    | .value v => ∃ g, a.given env (.value v) = .ok (.ok g) ∧
        (a.serveBy env fun b => (b.intoRequest.buf, handed env (.value v))).2 = .ok g
    | .error e => (a.serveBy env fun b => (b.intoRequest.buf, handed env (.error e))).2 = .err (.dispatching e)
    | .crash => (a.serveBy env fun b => (b.intoRequest.buf, handed env .crash)).2 = .err .connectionClosed := by
  have key : ∀ x : Answer, (a.serveBy env fun b => (b.intoRequest.buf, handed env x)) =
      ((a.remote env).wire, match handed env x with
        | .ok v => a.reads v
        | .err e => .err e
        | .panic => .panic
        | .stuck => .stuck) := by
    intro x
    have := C145_reads env (fun w => (w, handed env x)) a hn
    rw [h] at this
    exact this
  refine ⟨by rw [key], ?_⟩
  cases hx : (perform env (a.remote env) db).1 with
  | value v =>
    obtain ⟨b, hb, hu⟩ := Api.remote_call env a
    rw [hb] at hx
    have hs := C65_shape env b db v hx
    rw [hu] at hs
    cases hg : a.understood (orderedValue env v) with
    | none => exact absurd hg hs
    | some g =>
      refine ⟨g, by simp only [Api.given, hg], ?_⟩
      rw [key]; simp only [handed, reads_understood hg]
  | error e => simp only; rw [key]; rfl
  | crash => simp only; rw [key]; rfl

/-- Beside C145: a counter at 4, had the server's answer been handed over. -/
example : (Api.increment [107] (some .float)).serveBy (sampleEnv .debug) (fun b => (b.intoRequest.buf, handed (sampleEnv .debug)
      (perform (sampleEnv .debug) ((Api.increment [107] (some .float)).remote (sampleEnv .debug)) (sampleDb [([107], .integer 4)])).1)) =
    ([0, 1, 0, 0, 0, 1, 107], .ok (.value (.integer 5))) := by decide +kernel

/-! ## Further concrete cases -/

/-- A server that answers an increment. -/
example : ((Api.increment [107] none).serveBy (sampleEnv .debug) fun b => (b.intoRequest.buf, handed (sampleEnv .debug)
    (perform (sampleEnv .debug) ((Api.increment [107] none).remote (sampleEnv .debug)) (sampleDb [([107], .integer 4)])).1)).1 =
    [0, 1, 0, 0, 0, 1, 107] :=
  (C145_given (sampleEnv .debug) (.increment [107] none) (sampleDb [([107], .integer 4)]) (by decide) rfl).1

/-- A server whose answer a Get hands on. -/
example (ask : Bytes → Job Value) : ((Api.get [107]).serveBy (sampleEnv .debug) (fun b => ask b.intoRequest.buf)).1 =
    (ask ((Api.get [107]).remote (sampleEnv .debug)).wire).1 := by
  rw [C145_reads (sampleEnv .debug) ask (.get [107]) (by decide)]
  rfl

example : ∃ out w c', Response.asBytes (sampleEnv .debug) (.value (.list [[1], [2, 3]])) = some out ∧ Same w (.list [[1], [2, 3]]) ∧
    RespParser.feed .debug .new out = (.concluded (.value w), c') :=
  C44_decodes_partial (sampleEnv .debug) (.list [[1], [2, 3]]) ⟨by decide, by decide, by decide +kernel⟩

/-- A connection on which everything can be written. -/
example (fuel : Nat) (incoming : Bytes) : (Api.get [107]).serve (sampleEnv .debug) (fuel + 1) ⟨none, incoming⟩ =
    (((Api.get [107]).remote (sampleEnv .debug)).wire, .err .connectionClosed) :=
  C67_closed (sampleEnv .debug) fuel none incoming (.get [107]) (by decide) rfl (by intro n h; cases h)

/-- A call that cannot be built. -/
example (fuel : Nat) (c : Conn) : ∃ e, (Api.get []).refusalRemote = some e ∧ (Api.get []).serve (sampleEnv .debug) fuel c = ([], .err e) :=
  ⟨_, rfl, C67_refused (sampleEnv .debug) fuel c (.get []) (by decide) rfl⟩

/-- A connection that breaks after six bytes. -/
example (fuel : Nat) (incoming : Bytes) : (Api.increment [107] none).serve (sampleEnv .debug) fuel ⟨some 6, incoming⟩ =
    ([0, 1, 0, 0, 0, 1], .err .writingMessage) :=
  C67_unwritable (sampleEnv .debug) fuel 6 incoming (.increment [107] none) (by decide) rfl (by decide +kernel)

end Hop
