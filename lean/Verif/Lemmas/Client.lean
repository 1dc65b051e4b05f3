import Verif.Spec.Client
import Verif.Lemmas.Dispatch
import Verif.Lemmas.BuilderValue
import Verif.Lemmas.RespParser
import Verif.Props.Builder

set_option linter.unusedSimpArgs false

/-! # Lemmas about the client backends -/

namespace Hop

open Spec Prog

/-! ## Plumbing -/

theorem andThen_andThen {α β γ} (p : Prog α) (f : Outcome DispatchError α → Prog β)
    (g : Outcome DispatchError β → Prog γ) :
    (p.andThen f).andThen g = p.andThen (fun o => (f o).andThen g) := by
  induction p with
  | done r => rfl
  | onKey k upd next ih => simp only [andThen]; congr 1; funext o; exact ih o
  | onCtr m upd next ih => simp only [andThen]; congr 1; funext o; exact ih o

theorem bind_ret {α β} (a : α) (f : α → Client.Job β) : Client.bind (Client.ret a) f = f a := rfl
theorem bind_throw {α β} (e : Client.Error) (f : α → Client.Job β) :
    Client.bind (Client.throw e) f = Client.throw e := rfl
theorem bind_panic {α β} (f : α → Client.Job β) : Client.bind (Client.panic) f = Client.panic := rfl

theorem bind_assoc {α β γ} (p : Client.Job α) (f : α → Client.Job β) (g : β → Client.Job γ) :
    Client.bind (Client.bind p f) g = Client.bind p (fun a => Client.bind (f a) g) := by
  unfold Client.bind
  rw [andThen_andThen]
  congr 1
  funext o
  rcases o with ⟨_ | _⟩ | _ | _ | _ <;> rfl

theorem built_ok {α} {r : Builder.Res} {b : Builder} (h : r = (.ok (), b)) (f : Builder → Client.Job α) :
    Client.built r f = f b := by subst h; rfl

theorem built_err {α} {r : Builder.Res} {b : Builder} {e : BuilderError} (h : r = (.err e, b))
    (f : Builder → Client.Job α) : Client.built r f = Client.throw (.buildingRequest e) := by subst h; rfl

theorem built_panic {α} {r : Builder.Res} {b : Builder} (h : r = (.panic, b))
    (f : Builder → Client.Job α) : Client.built r f = Client.panic := by subst h; rfl

theorem run_bind_ok {α β} (p : Client.Job α) (f : α → Client.Job β) (db : Db) {a : α} {db' : Db}
    (h : p.run db = (.ok (.ok a), db')) : (Client.bind p f).run db = (f a).run db' := by
  rw [Client.bind, run_andThen, h]

theorem run_bind_error {α β} (p : Client.Job α) (f : α → Client.Job β) (db : Db) {e : Client.Error} {db' : Db}
    (h : p.run db = (.ok (.error e), db')) : (Client.bind p f).run db = (.ok (.error e), db') := by
  rw [Client.bind, run_andThen, h]
  rfl

theorem run_bind_panic {α β} (p : Client.Job α) (f : α → Client.Job β) (db : Db) {db' : Db}
    (h : p.run db = (.panic, db')) : (Client.bind p f).run db = (.panic, db') := by
  rw [Client.bind, run_andThen, h]
  rfl

/-! ## Sending a request -/

theorem carriable_deliverable {m : Mode} {a : Answer} (h : Carriable m a) : Deliverable m a := by
  cases a with
  | value v =>
    refine ⟨fits_body (r := .value v) h, ?_⟩
    intro _ l hl
    subst hl
    exact h.2.1
  | _ => trivial

/-- What `send` resolves to. -/
def sent (env : Env) : Answer → Outcome DispatchError (Except Client.Error Value)
  | .value v => .ok (.ok (orderedValue env v))
  | .error e => .ok (.error (.runningCommand e))
  | .crash => .panic

theorem run_send {env : Env} {b : Builder} {c : Call} (h : Views b.intoRequest c.cmd c.kt c.args) (db : Db)
    (hc : Roomy 1 db.ctrs) (hf : Carriable env.mode (perform env c db).1) :
    (Client.send env b).run db = (sent env (perform env c db).1, (perform env c db).2) := by
  rw [Client.send, run_andThen, dispatch_delivers h [] db hc (carriable_deliverable hf)]
  generalize (perform env c db).1 = a at hf
  cases a with
  | value v =>
    have h1 := RespParser.feed_frame env.mode (ordered env (.value v)) [] (fits_ordered env env.mode _ hf)
    rw [List.append_nil] at h1
    simp only [delivered, List.nil_append, h1]
    rfl
  | error e => rfl
  | crash => rfl

/-! ## Building a request -/

theorem alternating_eq (m : BMap) : alternating m = Builder.flattenPairs m := by
  induction m with
  | nil => rfl
  | cons e m ih => obtain ⟨k, v⟩ := e; simp only [alternating, Builder.flattenPairs, ih]

theorem spelled_eq (env : Env) (v : Value) : spelled env v = valueArgs env v := by
  cases v <;> simp only [spelled, valueArgs, alternating_eq] <;> rfl

theorem hollow_iff (v : Value) : hollow v = false ↔ acceptable v := by
  cases v <;> simp [hollow, acceptable]

theorem bytes_nil (m : Mode) (b : Builder) : b.bytes m [] = (.err .argumentEmpty, b) := rfl

/-- Pushing arguments one of which is empty. -/
theorem bytesAll_empty {b : Builder} {c kt args} (h : BInv b c kt args) (m : Mode) (as : List Bytes)
    (hn : args.length + as.length ≤ 255) (hne : [] ∈ as) :
    ∃ b', b.bytesAll m as = (.err .argumentEmpty, b') := by
  induction as generalizing b args with
  | nil => simp at hne
  | cons a as ih =>
    simp only [List.length_cons] at hn
    by_cases ha : a = []
    · subst ha
      exact ⟨b, by simp [Builder.bytesAll, bytes_nil]⟩
    · obtain ⟨b1, hb1, hi1⟩ := h.bytes m a (by omega) ha
      have hne' : [] ∈ as := by
        rcases List.mem_cons.mp hne with h | h
        · exact absurd h.symm ha
        · exact h
      obtain ⟨b2, hb2⟩ := ih hi1 (by simp; omega) hne'
      exact ⟨b2, by simp only [Builder.bytesAll, hb1, hb2]⟩

/-- A hollow value is refused. -/
theorem value_hollow {b : Builder} {c kt args} (h : BInv b c kt args) (env : Env) (v : Value)
    (hn : args.length + argsOf v ≤ 255) (hv : ¬ acceptable v) :
    ∃ b', b.value env v = (.err .valueEmpty, b') := by
  have hc := h.count
  have hov : ∀ n, args.length + n ≤ 255 → b.wouldOverfill (n % 256) = false := by
    intro n hn
    simp only [Builder.wouldOverfill, hc, decide_eq_false_iff_not]
    omega
  cases v with
  | boolean x => exact absurd trivial hv
  | float f => exact absurd trivial hv
  | integer i => exact absurd trivial hv
  | bytes x =>
    simp only [acceptable, ne_eq, Decidable.not_not] at hv
    exact ⟨b, by simp only [Builder.value, if_pos hv]⟩
  | string x =>
    simp only [acceptable, ne_eq, Decidable.not_not] at hv
    exact ⟨b, by simp only [Builder.value, if_pos hv]⟩
  | list l =>
    obtain ⟨b', hb, -⟩ := pushItems_empty h env.mode l hn hv
    exact ⟨b', by simp only [argsOf] at hn; simp only [Builder.value, hov _ hn]; exact hb⟩
  | map m =>
    simp only [acceptable, ne_eq, Decidable.not_not] at hv
    simp only [argsOf] at hn
    exact ⟨b, by simp only [Builder.value, hov m.length (by omega), if_pos hv]; rfl⟩
  | set s =>
    simp only [acceptable, ne_eq, Decidable.not_not] at hv
    simp only [argsOf] at hn
    exact ⟨b, by simp only [Builder.value, hov s.length (by omega), if_pos hv]; rfl⟩

/-- The builder of a request with one argument. -/
theorem one_arg (m : Mode) (c : CommandId) (kt : Option KeyType) (k : Bytes) (hc : c.isSimple = false)
    (hk : k ≠ []) :
    ∃ b, (Builder.newWithKeyType c kt).bytes m k = (.ok (), b) ∧ BInv b c kt [k] := by
  obtain ⟨b, h1, h2⟩ := (BInv.new c kt hc).bytes m k (by simp) hk
  exact ⟨b, h1, by simpa using h2⟩

/-- What a call does with the value it receives. -/
def reading (a : Api) (v : Value) : Client.Job Got :=
  match a.understood v with
  | some g => Client.ret g
  | none => Client.panic

/-- Values `key_type` can receive: type numbers. -/
def Expected (a : Api) (v : Value) : Prop :=
  ∀ k, a = .keyType k → ∃ t : KeyType, v = .integer (Int64.ofNat t.toByte.toNat)

/-- A call that is not refused sends one request and reads the answer. -/
def Sends (env : Env) (a : Api) : Prop :=
  ∃ b f, Views b.intoRequest (a.call env).cmd (a.call env).kt (a.call env).args ∧
    a.start env = Client.bind (Client.send env b) f ∧ ∀ v, Expected a v → f v = reading a v

theorem spelled_length (env : Env) (v : Value) : (spelled env v).length = argsOf v := by
  rw [spelled_eq, valueArgs_length]

theorem wrap_built {α} (F : α → Got) (r : Builder.Res) (f : Builder → Client.Job α) :
    wrap F (Client.built r f) = Client.built r (fun b => wrap F (f b)) := by
  obtain ⟨r, b⟩ := r
  cases r <;> rfl

theorem wrap_bind {α} (F : α → Got) (p : Client.Job Value) (f : Value → Client.Job α) :
    wrap F (Client.bind p f) = Client.bind p (fun v => wrap F (f v)) := bind_assoc _ _ _

theorem wrap_send (F : Value → Got) (p : Client.Job Value) :
    wrap F p = Client.bind p (fun v => Client.ret (F v)) := rfl

theorem reading_keyType (k : Bytes) (v : Value) (h : ∃ t : KeyType, v = .integer (Int64.ofNat t.toByte.toNat)) :
    wrap Got.kind (Client.asKeyType v) = reading (.keyType k) v := by
  obtain ⟨t, rfl⟩ := h
  cases t <;> rfl

theorem Api.start_eq (env : Env) (a : Api) (hn : (a.call env).args.length ≤ 255) :
    match a.refusal with
    | some e => a.start env = Client.throw e
    | none => Sends env a := by
  have one : ∀ (a : Api) (c : CommandId) (kt : Option KeyType) (k : Bytes) (g : Value → Client.Job Got),
      c.isSimple = false → a.call env = ⟨c, kt, [k]⟩ →
      a.refusal = (if k = [] then some (.buildingRequest .argumentEmpty) else none) →
      a.start env = Client.built ((Builder.newWithKeyType c kt).bytes env.mode k)
          (fun b => Client.bind (Client.send env b) g) →
      (∀ v, Expected a v → g v = reading a v) →
      match a.refusal with
      | some e => a.start env = Client.throw e
      | none => Sends env a := by
    intro a c kt k g hc hcall href hstart hg
    rw [href]
    by_cases hk : k = []
    · subst hk
      rw [hstart]
      rfl
    · obtain ⟨b, h1, h2⟩ := one_arg env.mode c kt k hc hk
      simp only [if_neg hk]
      refine ⟨b, g, ?_, ?_, hg⟩
      · rw [hcall]; exact h2.views
      · rw [hstart, built_ok h1]
  have nat : ∀ v, wrap Got.value (Client.asNumber v) =
      (match (if numeric v.kind then some (Got.value v) else none) with
        | some g => Client.ret g
        | none => Client.panic) := by
    intro v; cases v <;> rfl
  cases a with
  | decrement k t =>
    refine one _ .decrement t k (fun v => wrap Got.value (Client.asNumber v)) rfl rfl rfl ?_ (fun v _ => nat v)
    simp only [Api.start, Client.decrement, wrap_built, wrap_bind]
  | increment k t =>
    refine one _ .increment t k (fun v => wrap Got.value (Client.asNumber v)) rfl rfl rfl ?_ (fun v _ => nat v)
    simp only [Api.start, Client.increment, wrap_built, wrap_bind]
  | delete k =>
    refine one _ .delete none k (fun v => wrap Got.bytes (Client.asBytes v)) rfl rfl rfl ?_
      (fun v _ => by cases v <;> rfl)
    simp only [Api.start, Client.delete, wrap_built, wrap_bind, Builder.new_eq]
  | echo k =>
    refine one _ .echo none k (fun v => wrap Got.list (Client.asList v)) rfl rfl rfl ?_
      (fun v _ => by cases v <;> rfl)
    simp only [Api.start, Client.echo, wrap_built, wrap_bind, Builder.new_eq]
  | get k =>
    refine one _ .get none k (fun v => Client.ret (.value v)) rfl rfl rfl ?_ (fun v _ => by cases v <;> rfl)
    simp only [Api.start, Client.get, wrap_built, wrap_send, Builder.new_eq]
  | keyType k =>
    refine one _ .type none k (fun v => wrap Got.kind (Client.asKeyType v)) rfl rfl rfl ?_
      (fun v hv => reading_keyType k v (hv k rfl))
    simp only [Api.start, Client.keyType, wrap_built, wrap_bind, Builder.new_eq]
  | keys k =>
    refine one _ .keys none k (fun v => wrap Got.list (Client.asList v)) rfl rfl rfl ?_
      (fun v _ => by cases v <;> rfl)
    simp only [Api.start, Client.keys, wrap_built, wrap_bind, Builder.new_eq]
  | length k t =>
    refine one _ .length t k (fun v => wrap Got.int (Client.asInt v)) rfl rfl rfl ?_
      (fun v _ => by cases v <;> rfl)
    simp only [Api.start, Client.length, wrap_built, wrap_bind]
  | stats =>
    obtain ⟨b, h1, h2, -⟩ := C01_built_request_args env.mode .stats none [] (.inr rfl) (by simp) (by simp)
    have hb : b = Builder.newWithKeyType .stats none := by
      simp only [Builder.bytesAll, Prod.mk.injEq, true_and] at h1
      exact h1.symm
    refine ⟨b, fun v => wrap Got.stats (Client.asMap v), h2, ?_, fun v _ => by cases v <;> rfl⟩
    simp only [Api.start, Client.stats, wrap_bind, Builder.new_eq, hb]
  | rename x y =>
    simp only [Api.refusal]
    by_cases hx : x = []
    · subst hx; rfl
    · obtain ⟨b1, h1, h2⟩ := one_arg env.mode .rename none x rfl hx
      by_cases hy : y = []
      · subst hy
        simp only [or_true, if_true]
        simp only [Api.start, Client.rename, Builder.new_eq, wrap_built, built_ok h1, bytes_nil]
        rfl
      · obtain ⟨b2, h3, h4⟩ := h2.bytes env.mode y (by simp) hy
        simp only [hx, hy, or_self, if_false]
        refine ⟨b2, fun v => wrap Got.bytes (Client.asBytes v), h4.views, ?_, fun v _ => by cases v <;> rfl⟩
        simp only [Api.start, Client.rename, Builder.new_eq, wrap_built, built_ok h1, built_ok h3, wrap_bind]
  | «exists» ks =>
    simp only [Api.refusal]
    have h0 := BInv.new .exists none rfl
    by_cases hk : [] ∈ ks
    · obtain ⟨b, hb⟩ := bytesAll_empty h0 env.mode ks (by simpa [Api.call] using hn) hk
      simp only [if_pos hk]
      simp only [Api.start, Client.exists, Builder.new_eq, wrap_built, built_err hb]; rfl
    · obtain ⟨b, h1, h2⟩ := h0.bytesAll env.mode ks (by simpa [Api.call] using hn)
        (fun a ha h => hk (h ▸ ha))
      simp only [if_neg hk]
      refine ⟨b, fun v => wrap Got.bool (Client.asBool v), h2.views, ?_, fun v _ => by cases v <;> rfl⟩
      simp only [Api.start, Client.exists, Builder.new_eq, wrap_built, built_ok h1, wrap_bind]
  | is t ks =>
    simp only [Api.refusal]
    have h0 := BInv.new .is (some t) rfl
    by_cases hk : [] ∈ ks
    · obtain ⟨b, hb⟩ := bytesAll_empty h0 env.mode ks (by simpa [Api.call] using hn) hk
      simp only [if_pos hk]
      simp only [Api.start, Client.is, wrap_built, built_err hb]; rfl
    · obtain ⟨b, h1, h2⟩ := h0.bytesAll env.mode ks (by simpa [Api.call] using hn)
        (fun a ha h => hk (h ▸ ha))
      simp only [if_neg hk]
      refine ⟨b, fun v => wrap Got.bool (Client.asBool v), h2.views, ?_, fun v _ => by cases v <;> rfl⟩
      simp only [Api.start, Client.is, wrap_built, built_ok h1, wrap_bind]
  | set k v =>
    simp only [Api.refusal]
    simp only [Api.call, List.length_cons, spelled_length] at hn
    by_cases hk : k = []
    · subst hk; rfl
    · obtain ⟨b1, h1, h2⟩ := one_arg env.mode .set (some v.kind) k rfl hk
      simp only [if_neg hk]
      by_cases hv : acceptable v
      · obtain ⟨b2, h3, h4⟩ := h2.value env v (by simp; omega) hv
        simp only [(hollow_iff v).mpr hv]
        refine ⟨b2, fun v => Client.ret (.value v), ?_, ?_, fun v _ => by cases v <;> rfl⟩
        · have := h4.views
          simpa [Api.call, spelled_eq] using this
        · simp only [Api.start, Client.set, wrap_built, built_ok h1, built_ok h3, wrap_send]
      · obtain ⟨b2, h3⟩ := value_hollow h2 env v (by simp; omega) hv
        have : hollow v = true := by
          cases h : hollow v with
          | true => rfl
          | false => exact absurd ((hollow_iff v).mp h) hv
        simp only [this, if_true]
        simp only [Api.start, Client.set, wrap_built, built_ok h1, built_err h3]; rfl
  | incrementBy k v =>
    simp only [Api.refusal]
    by_cases hk : k = []
    · subst hk; rfl
    · obtain ⟨b1, h1, h2⟩ := one_arg env.mode .incrementBy (some v.kind) k rfl hk
      simp only [if_neg hk]
      have fin : ∀ hv : acceptable v, numeric v.kind = true → argsOf v = 1 →
          ¬ (v.kind ≠ .float ∧ v.kind ≠ .integer) → Sends env (.incrementBy k v) := by
        intro hv hnum hone hkind
        obtain ⟨b2, h3, h4⟩ := h2.value env v (by simp [hone]) hv
        refine ⟨b2, fun v => wrap Got.value (Client.asNumber v), ?_, ?_, fun v _ => nat v⟩
        · have := h4.views
          simpa [Api.call, spelled_eq] using this
        · simp only [Api.start, Client.incrementBy, wrap_built, built_ok h1, if_neg hkind, built_ok h3, wrap_bind]
      cases v with
      | float f => exact fin trivial rfl rfl (by simp [Value.kind])
      | integer f => exact fin trivial rfl rfl (by simp [Value.kind])
      | _ => simp only [Api.start, Client.incrementBy, wrap_built, built_ok h1]; rfl
  | decrementBy k v =>
    simp only [Api.refusal]
    by_cases hk : k = []
    · subst hk; rfl
    · obtain ⟨b1, h1, h2⟩ := one_arg env.mode .decrementBy (some v.kind) k rfl hk
      simp only [if_neg hk]
      have fin : ∀ hv : acceptable v, numeric v.kind = true → argsOf v = 1 →
          ¬ (v.kind ≠ .float ∧ v.kind ≠ .integer) → Sends env (.decrementBy k v) := by
        intro hv hnum hone hkind
        obtain ⟨b2, h3, h4⟩ := h2.value env v (by simp [hone]) hv
        refine ⟨b2, fun v => wrap Got.value (Client.asNumber v), ?_, ?_, fun v _ => nat v⟩
        · have := h4.views
          simpa [Api.call, spelled_eq] using this
        · simp only [Api.start, Client.decrementBy, wrap_built, built_ok h1, if_neg hkind, built_ok h3, wrap_bind]
      cases v with
      | float f => exact fin trivial rfl rfl (by simp [Value.kind])
      | integer f => exact fin trivial rfl rfl (by simp [Value.kind])
      | _ => simp only [Api.start, Client.decrementBy, wrap_built, built_ok h1]; rfl
  | append k v =>
    simp only [Api.refusal]
    simp only [Api.call, List.length_cons, spelled_length] at hn
    by_cases hk : k = []
    · subst hk; rfl
    · obtain ⟨b1, h1, h2⟩ := one_arg env.mode .append (some v.kind) k rfl hk
      simp only [if_neg hk]
      cases v with
      | bytes x =>
        by_cases hx : x = []
        · subst hx
          simp only [Api.start, Client.append, wrap_built, built_ok h1]; rfl
        · obtain ⟨b2, h3, h4⟩ := h2.bytes env.mode x (by simp) hx
          simp only [Value.kind, appendable, hollow]
          simp only [Bool.not_true, Bool.false_eq_true, if_false, List.isEmpty_iff, hx]
          refine ⟨b2, fun v => Client.ret (.value v), h4.views, ?_, fun v _ => by cases v <;> rfl⟩
          simp only [Api.start, Client.append, wrap_built, built_ok h1, built_ok h3, wrap_send]
      | string x =>
        by_cases hx : x = []
        · subst hx
          simp only [Api.start, Client.append, wrap_built, built_ok h1]; rfl
        · obtain ⟨b2, h3, h4⟩ := h2.bytes env.mode (strBytes x) (by simp) (by simpa [strBytes_eq_nil] using hx)
          simp only [Value.kind, appendable, hollow]
          simp only [Bool.not_true, Bool.false_eq_true, if_false, List.isEmpty_iff, hx]
          refine ⟨b2, fun v => Client.ret (.value v), h4.views, ?_, fun v _ => by cases v <;> rfl⟩
          simp only [Api.start, Client.append, wrap_built, built_ok h1, built_ok h3, wrap_send]
      | list l =>
        simp only [argsOf] at hn
        by_cases hl : [] ∈ l
        · obtain ⟨b2, h3⟩ := bytesAll_empty h2 env.mode l (by simp; omega) hl
          have : hollow (.list l) = true := by
            simp only [hollow, List.any_eq_true, List.isEmpty_iff]
            exact ⟨[], hl, rfl⟩
          simp only [Value.kind, appendable, this]
          simp only [Bool.not_true, Bool.false_eq_true, if_false, if_true]
          simp only [Api.start, Client.append, wrap_built, built_ok h1, built_err h3]; rfl
        · obtain ⟨b2, h3, h4⟩ := h2.bytesAll env.mode l (by simp; omega) (fun a ha h => hl (h ▸ ha))
          have : hollow (.list l) = false := by
            rw [hollow_iff]
            exact fun a ha h => hl (h ▸ ha)
          simp only [Value.kind, appendable, this]
          simp only [Bool.not_true, Bool.false_eq_true, if_false]
          refine ⟨b2, fun v => Client.ret (.value v), h4.views, ?_, fun v _ => by cases v <;> rfl⟩
          simp only [Api.start, Client.append, wrap_built, built_ok h1, built_ok h3, wrap_send]
      | _ => simp only [Api.start, Client.append, wrap_built, built_ok h1]; rfl

end Hop
