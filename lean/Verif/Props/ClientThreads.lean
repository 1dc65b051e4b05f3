import Verif.Props.Promises
import Verif.Props.Client
import Verif.Props.Concurrent

/-! # C112: calls of an in-memory client made by several threads -/

namespace Hop

open Spec Prog

/-! ## Programs that end by computing something from the outcome of another -/

theorem step_andThen {α β} {p : Prog α} {f : Outcome DispatchError α → Prog β} (hf : ∀ r, ∃ o, f r = .done o) (db : Db) :
    (p.andThen f).step db = ((p.step db).1.andThen f, (p.step db).2) := by
  cases p with
  | done r => obtain ⟨o, ho⟩ := hf r; simp only [Prog.andThen, Prog.step, ho]
  | onKey k upd next => rfl
  | onCtr m upd next => rfl

/-- The threads of `P` do what those of `E` do, and then compute something from the outcome. -/
def Follows {α β} (f : Nat → Outcome DispatchError α → Outcome DispatchError β) (E : Pool α) (P : Pool β) : Prop :=
  P.db = E.db ∧ ∀ i : Nat, P.threads[i]? = E.threads[i]?.map fun t => t.andThen fun r => .done (f i r)

theorem Follows.stepAt {α β} {f : Nat → Outcome DispatchError α → Outcome DispatchError β} {E : Pool α} {P : Pool β}
    (h : Follows f E P) (j : Nat) : Follows f (E.stepAt j) (P.stepAt j) := by
  obtain ⟨hdb, ht⟩ := h
  cases hj : E.threads[j]? with
  | none =>
    have : P.threads[j]? = none := by rw [ht, hj]; rfl
    rw [Pool.stepAt_none hj, Pool.stepAt_none this]
    exact ⟨hdb, ht⟩
  | some t =>
    have hp : P.threads[j]? = some (t.andThen fun r => .done (f j r)) := by rw [ht, hj]; rfl
    obtain ⟨h1, h2⟩ := Pool.stepAt_self hj
    obtain ⟨h3, h4⟩ := Pool.stepAt_self hp
    rw [step_andThen fun r => ⟨_, rfl⟩] at h3 h4
    rw [hdb] at h3 h4
    refine ⟨by rw [h2, h4], fun i => ?_⟩
    by_cases hij : i = j
    · subst hij; rw [h1, h3]; rfl
    · rw [Pool.stepAt_other P hij, Pool.stepAt_other E hij, ht]

theorem Follows.exec {α β} {f : Nat → Outcome DispatchError α → Outcome DispatchError β} {E : Pool α} {P : Pool β}
    (h : Follows f E P) (sched : List Nat) : Follows f (E.exec sched) (P.exec sched) := by
  induction sched generalizing E P with
  | nil => exact h
  | cons j js ih => exact ih (h.stepAt j)

/-- How the threads have ended. -/
theorem Follows.ends {α β} {f : Nat → Outcome DispatchError α → Outcome DispatchError β} {E : Pool α} {P : Pool β}
    (h : Follows f E P) (i : Nat) : endOf P i = (endOf E i).map (f i) := by
  unfold endOf
  rw [h.2 i]
  cases E.threads[i]? with
  | none => rfl
  | some t => cases t <;> rfl

/-! ## What a call makes of the outcome of its command -/

/-- `send`'s reading of an outcome, then the call's. -/
def readOutcome (env : Env) (f : Value → Client.Job Got) : Outcome DispatchError Bytes → Client.Job Got
  | .ok resp =>
    match (RespParser.feed env.mode .new resp).1 with
    | .concluded (.value v) => f v
    | .concluded (.dispatchError e) => Client.throw (.dispatching e)
    | .concluded (.parseError e) => Client.throw (.badRequest e)
    | .error _ => Client.panic
    | .readBytes _ => Client.panic
    | .panic => Client.panic
    | .stuck => .done .stuck
  | .err e => Client.throw (.runningCommand e)
  | .panic => Client.panic
  | .stuck => .done .stuck

theorem bind_send (env : Env) (b : Builder) (f : Value → Client.Job Got) :
    Client.bind (Client.send env b) f = (dispatch env b.intoRequest []).andThen (readOutcome env f) := by
  unfold Client.bind Client.send
  rw [andThen_andThen]
  congr 1
  funext o
  cases o with
  | ok resp =>
    simp only [readOutcome]
    cases (RespParser.feed env.mode .new resp).1 with
    | concluded r => cases r <;> rfl
    | _ => rfl
  | _ => rfl

theorem reading_done (a : Api) (v : Value) : ∃ o, reading a v = .done o := by
  unfold reading
  cases a.understood v <;> exact ⟨_, rfl⟩

/-- A call that is not refused sends one request and computes its result from the response. -/
theorem sends_done (env : Env) (a : Api) (hn : (a.call env).args.length ≤ 255) (hr : a.refusal = none) :
    ∃ b f, Views b.intoRequest (a.call env).cmd (a.call env).kt (a.call env).args ∧
      a.start env = Client.bind (Client.send env b) f ∧ (∀ v, Expected a v → f v = reading a v) ∧ ∀ v, ∃ o, f v = .done o := by
  by_cases hk : ∃ k, a = .keyType k
  · obtain ⟨k, rfl⟩ := hk
    have hk : k ≠ [] := by rintro rfl; simp [Api.refusal] at hr
    obtain ⟨b, h1, h2⟩ := one_arg env.mode .type none k rfl hk
    refine ⟨b, fun v => wrap Got.kind (Client.asKeyType v), h2.views, ?_, fun v hv => reading_keyType k v (hv k rfl), fun v => ?_⟩
    · simp only [Api.start, Client.keyType, wrap_built, wrap_bind, Builder.new_eq, built_ok h1]
    · cases v with
      | integer i =>
        simp only [Client.asKeyType]
        cases KeyType.ofByte (UInt8.ofNat (i.toUInt64.toNat % 256)) <;> exact ⟨_, rfl⟩
      | _ => exact ⟨_, rfl⟩
  · have := Api.start_eq env a hn
    rw [hr] at this
    obtain ⟨b, f, hv, hs, hf⟩ := this
    refine ⟨b, f, hv, hs, hf, fun v => ?_⟩
    rw [hf v fun k h => absurd ⟨k, h⟩ hk]
    exact reading_done a v

/-- Every value a command promises has the shape its call promises. -/
theorem promised_understood (env : Env) (a : Api) (v : Value) (h : Promised env (a.call env) v) :
    Expected a (orderedValue env v) ∧ a.understood (orderedValue env v) ≠ none := by
  constructor
  · rintro k rfl
    obtain ⟨t, rfl⟩ := h
    exact ⟨t, rfl⟩
  cases a with
  | append k w => simp [Api.understood]
  | get k => simp [Api.understood]
  | set k w => simp [Api.understood]
  | increment k t | decrement k t =>
    all_goals
      simp only [Promised, Api.call] at h
      by_cases ht : t = some .float
      · simp only [ht, if_true] at h
        obtain ⟨f, rfl⟩ := h; simp [Api.understood, orderedValue, Value.kind, numeric]
      · simp only [ht, if_false] at h
        cases v <;> simp [Value.kind] at h <;> simp [Api.understood, orderedValue, Value.kind, numeric]
  | incrementBy k t | decrementBy k t =>
    all_goals
      simp only [Promised, Api.call] at h
      cases v <;> simp [Value.kind] at h <;> simp [Api.understood, orderedValue, Value.kind, numeric]
  | delete k | rename k k' => all_goals obtain ⟨_, -, rfl⟩ := h; simp [Api.understood, orderedValue]
  | echo k => cases h; simp [Api.understood, orderedValue]
  | «exists» ks | is t ks =>
    all_goals
      simp only [Promised, Api.call] at h
      cases v <;> simp [Value.kind] at h <;> simp [Api.understood, orderedValue]
  | keyType k => obtain ⟨t, rfl⟩ := h; cases t <;> simp [Api.understood, orderedValue] <;> decide
  | keys k => obtain ⟨m, rfl⟩ := h; simp [Api.understood, orderedValue]
  | length k t => obtain ⟨w, n, -, -, rfl⟩ := h; simp [Api.understood, orderedValue]
  | stats => obtain ⟨c, rfl⟩ := h; simp [Api.understood, orderedValue]

/-- The requests of the calls, and how the calls read the responses. -/
theorem requests_of (env : Env) (calls : List Api) (hn : ∀ a ∈ calls, (a.call env).args.length ≤ 255)
    (hr : ∀ a ∈ calls, a.refusal = none) :
    ∃ (rs : List (Request × Bytes)) (fs : List (Value → Client.Job Got)), Sees rs (calls.map (·.call env)) ∧
      (∀ r ∈ rs, r.2 = []) ∧ rs.length = calls.length ∧ ∀ (i : Nat) (a : Api), calls[i]? = some a → ∃ r f, rs[i]? = some (r, []) ∧ fs[i]? = some f ∧
        Views r (a.call env).cmd (a.call env).kt (a.call env).args ∧
        a.start env = (dispatch env r []).andThen (readOutcome env f) ∧ (∀ v, Expected a v → f v = reading a v) ∧
        ∀ v, ∃ o, f v = .done o := by
  induction calls with
  | nil => exact ⟨[], [], .nil, by simp, rfl, by simp⟩
  | cons a as ih =>
    obtain ⟨rs, fs, h1, h2, h3, h4⟩ := ih (fun b hb => hn b (List.mem_cons_of_mem _ hb)) fun b hb => hr b (List.mem_cons_of_mem _ hb)
    obtain ⟨b, f, hv, hs, hf, hd⟩ := sends_done env a (hn a List.mem_cons_self) (hr a List.mem_cons_self)
    refine ⟨(b.intoRequest, []) :: rs, f :: fs, .cons hv h1, ?_, by simp [h3], fun i a' hi => ?_⟩
    · intro r hr'
      rcases List.mem_cons.mp hr' with rfl | hr'
      · rfl
      · exact h2 r hr'
    · cases i with
      | zero =>
        simp only [List.getElem?_cons_zero, Option.some.injEq] at hi
        subst hi
        exact ⟨_, f, rfl, rfl, hv, by rw [hs, bind_send], hf, hd⟩
      | succ i => exact h4 i a' hi

/-- The outcome of a program that has ended. -/
def finalOf {α} : Prog α → Outcome DispatchError α
  | .done o => o
  | _ => .stuck

/-- The calls of several threads, on a shared client. -/
def Spec.threadsOf (env : Env) (calls : List Api) (db : Db) : Pool (Except Client.Error Got) :=
  ⟨calls.map (·.start env), db⟩

/-- What a call has resolved to when its command has come to an outcome (`none`: it is still running). A
response that is too large for the format may be read as anything. -/
def Spec.Resolves (env : Env) (a : Api) : Option (Outcome DispatchError Bytes) →
    Option (Outcome DispatchError (Except Client.Error Got)) → Prop
  | none, x => x = none
  | some (.ok out), x => (∃ v, Promised env (a.call env) v ∧ Response.writeValue env [] v = some out) ∧
      ∀ v, Promised env (a.call env) v → Response.writeValue env [] v = some out →
        ∃ g, a.given env (.value v) = .ok (.ok g) ∧ (FitsValue env.mode v → x = some (.ok (.ok g)))
  | some (.err e), x => x = some (.ok (.error (.runningCommand e)))
  | some .panic, x => x = some .panic
  | some .stuck, x => x = some .stuck

/-- C112. Any number of threads call an in-memory client; no call is refused. Then there are requests, one for
each call, spelling the engine command the call stands for, such that under every schedule, at every moment,
the database is the one the engine would have after serving these requests under the same schedule, and each
call has resolved exactly if its request has been answered, to that answer. -/
theorem C112_calls (env : Env) (calls : List Api) (hn : ∀ a ∈ calls, (a.call env).args.length ≤ 255)
    (hr : ∀ a ∈ calls, a.refusal = none) (db : Db) :
    ∃ rs, Sees rs (calls.map (·.call env)) ∧ (∀ r ∈ rs, r.2 = []) ∧ ∀ sched,
      ((threadsOf env calls db).exec sched).db = ((Pool.start env rs db).exec sched).db ∧
      ∀ (i : Nat) (a : Api), calls[i]? = some a →
        Resolves env a (endOf ((Pool.start env rs db).exec sched) i) (endOf ((threadsOf env calls db).exec sched) i) := by
  obtain ⟨rs, fs, h1, h2, h3, h4⟩ := requests_of env calls hn hr
  refine ⟨rs, h1, h2, fun sched => ?_⟩
  have h0 : Follows (fun i o => finalOf (readOutcome env ((fs[i]?).getD fun _ => Client.panic) o)) (Pool.start env rs db)
      (threadsOf env calls db) := by
    refine ⟨rfl, fun i => ?_⟩
    simp only [threadsOf, Pool.start, List.getElem?_map]
    cases hi : calls[i]? with
    | none =>
      rw [List.getElem?_eq_none_iff] at hi
      rw [show rs[i]? = none from List.getElem?_eq_none (by omega)]
      rfl
    | some a =>
      obtain ⟨r, f, hr, hf, -, hs, -, hd⟩ := h4 i a hi
      rw [hr, hf]
      simp only [Option.map_some, Option.getD_some, Option.some.injEq]
      rw [hs]
      congr 1
      funext o
      cases o with
      | ok resp =>
        simp only [readOutcome]
        cases (RespParser.feed env.mode .new resp).1 with
        | concluded x =>
          cases x with
          | value v => obtain ⟨o, ho⟩ := hd v; simp only [ho, finalOf]
          | _ => rfl
        | _ => rfl
      | _ => rfl
  have hex := h0.exec sched
  refine ⟨hex.1, fun i a hi => ?_⟩
  rw [hex.ends i]
  obtain ⟨r, f, hr, hf, hv, hs, hg, hd⟩ := h4 i a hi
  rw [hf]
  cases he : endOf ((Pool.start env rs db).exec sched) i with
  | none => rfl
  | some o =>
    have hfs := C111_answers (env := env) (resp := []) hv (Pool.start env rs db) i (by simp [Pool.start, hr]) sched o (endOf_eq he)
    cases o with
    | ok out =>
      obtain ⟨-, v, hp, hw⟩ := hfs
      refine ⟨⟨v, hp, hw⟩, ?_⟩
      clear hp hw v
      intro v hp hw
      obtain ⟨hx, hu⟩ := promised_understood env a v hp
      cases hg' : a.understood (orderedValue env v) with
      | none => exact absurd hg' hu
      | some g =>
        refine ⟨g, by simp only [Api.given]; rw [hg'], fun hfit => ?_⟩
        have h5 := RespParser.feed_frame env.mode (ordered env (.value v)) [] (fits_ordered env env.mode _ hfit)
        rw [writeValue_deliverable (carriable_deliverable (a := .value v) hfit)] at hw
        simp only [List.nil_append, Option.some.injEq] at hw
        rw [List.append_nil, hw] at h5
        simp only [Option.map_some, Option.getD_some, readOutcome, h5, ordered]
        rw [hg _ hx]
        simp only [reading, hg']
        rfl
    | _ => rfl

/-- C112. A call that is refused resolves at once and never does anything. -/
theorem C112_refused (env : Env) (a : Api) (hn : (a.call env).args.length ≤ 255) {e : Client.Error} (h : a.refusal = some e)
    (p : Pool (Except Client.Error Got)) (i : Nat) (hi : p.threads[i]? = some (a.start env)) :
    endOf p i = some (.ok (.error e)) ∧ p.stepAt i = p := by
  have := Api.start_eq env a hn
  rw [h] at this
  rw [this] at hi
  refine ⟨?_, Pool.stepAt_done hi⟩
  unfold endOf
  rw [hi]
  rfl

/-! ## Counters through a client -/

/-- The call for a counter operation. -/
def Spec.CounterOp.api (k : Bytes) : CounterOp → Api
  | .inc => .increment k none
  | .dec => .decrement k none
  | .incBy n => .incrementBy k (.integer n)
  | .decBy n => .decrementBy k (.integer n)

theorem CounterOp.api_spells (env : Env) (k : Bytes) (o : CounterOp) : o.Spells k ((o.api k).call env) := by
  cases o with
  | inc => exact ⟨rfl, by simp [CounterOp.api, Api.call], [], rfl⟩
  | dec => exact ⟨rfl, by simp [CounterOp.api, Api.call], [], rfl⟩
  | incBy n => exact ⟨rfl, [], [], by simp [CounterOp.api, Api.call, spelled]⟩
  | decBy n => exact ⟨rfl, [], [], by simp [CounterOp.api, Api.call, spelled]⟩

theorem endOf_iff {α} {p : Pool α} {i : Nat} {o : Outcome DispatchError α} :
    endOf p i = some o ↔ p.threads[i]? = some (.done o) := by
  refine ⟨endOf_eq, fun h => ?_⟩
  unfold endOf
  rw [h]

theorem finished_iff {α} {p : Pool α} : p.finished ↔ ∀ i < p.threads.length, endOf p i ≠ none := by
  constructor
  · intro h i hi
    obtain ⟨r, hr⟩ := h _ (List.getElem_mem hi)
    rw [endOf_iff.mpr (by rw [List.getElem?_eq_getElem hi, hr])]
    simp
  · intro h t ht
    obtain ⟨i, hi, rfl⟩ := List.getElem_of_mem ht
    cases ho : endOf p i with
    | none => exact absurd ho (h i hi)
    | some o =>
      have := endOf_eq ho
      rw [List.getElem?_eq_getElem hi, Option.some.injEq] at this
      exact ⟨o, this⟩

/-- Where the calls have resolved, the requests have been answered. -/
theorem Resolves.answered {env : Env} {a : Api} {x : Option (Outcome DispatchError Bytes)}
    {y : Option (Outcome DispatchError (Except Client.Error Got))} (h : Resolves env a x y) (hy : y ≠ none) : x ≠ none := by
  rintro rfl
  exact hy h

/-- C112, for counters: any number of threads increment and decrement an existing integer key through an
in-memory client. Under every schedule that lets all of them finish no call is lost: the final value is the
initial one plus all amounts, and there is an order of the calls such that each resolves to the running total.
In release builds always (totals wrapped to 64 bits), in debug builds if no order overflows. -/
theorem C112_counters (env : Env) (k : Bytes) (os : List CounterOp) (hk : k ≠ []) (hu : ¬ unusable env.mode k) (start : Int64)
    (db : Db) (hstart : db.keys k = some (.integer start)) (hc : Roomy os.length db.ctrs)
    (hov : env.mode = .release ∨ ∀ os', os'.Perm os → NoOverflow start.toInt os') (sched : List Nat)
    (hf : ((threadsOf env (os.map (·.api k)) db).exec sched).finished) :
    ((threadsOf env (os.map (·.api k)) db).exec sched).db.keys k = some (.integer (Int64.ofInt (start.toInt + total os))) ∧
    ∃ order : List Nat, order.Perm (List.range os.length) ∧ ∀ j i : Nat, order[j]? = some i →
      endOf ((threadsOf env (os.map (·.api k)) db).exec sched) i = some (.ok (.ok (.value (.integer
        (Int64.ofInt (start.toInt + total ((pick os order).take (j + 1)))))))) := by
  have hn : ∀ a ∈ os.map (·.api k), (a.call env).args.length ≤ 255 := by
    intro a ha
    obtain ⟨o, -, rfl⟩ := List.mem_map.mp ha
    cases o <;> simp [CounterOp.api, Api.call, spelled]
  have hr : ∀ a ∈ os.map (·.api k), a.refusal = none := by
    intro a ha
    obtain ⟨o, -, rfl⟩ := List.mem_map.mp ha
    cases o <;> simp [CounterOp.api, Api.refusal, hk, numeric, Value.kind]
  obtain ⟨rs, hs, hnil, hall⟩ := C112_calls env (os.map (·.api k)) hn hr db
  have hlen := (Sees.get hs).1
  simp only [List.length_map] at hlen
  obtain ⟨hdb, hres⟩ := hall sched
  have hpres : present (os.map some) = os := by simp [present, List.filterMap_map]
  have hroles : All2 (CounterRole (· = k) k) (os.map some) ((os.map (·.api k)).map (·.call env)) := by
    clear hf hov hc hn hr hs hnil hall hlen hdb hres hpres
    induction os with
    | nil => exact .nil
    | cons o os ih => exact .cons (CounterOp.api_spells env k o) ih
  have hfin : ((Pool.start env rs db).exec sched).finished := by
    rw [finished_iff] at hf ⊢
    intro i hi
    have hi' : i < os.length := by simpa [Pool.exec_length, Pool.start, hlen] using hi
    refine Resolves.answered (hres i ((os[i]).api k) (by simp [hi'])) (hf i ?_)
    simpa [Pool.exec_length, threadsOf] using hi'
  obtain ⟨h1, order, h2, h3, -⟩ := C32_concurrent_counters (env := env) hs (· = k) k rfl hroles hu start db hstart
    (by rintro k' rfl; rw [hstart]; simp) (by rw [hlen]; exact hc) (by rw [hpres]; exact hov) sched hfin
  rw [hpres] at h1
  rw [hdb]
  refine ⟨h1, order, by rw [← hlen]; exact h2, fun j i hj => ?_⟩
  have hi : i < os.length := by
    have := h2.subset (List.mem_of_getElem? hj)
    simpa [hlen] using this
  have hri : rs[i]?.map Prod.snd = some [] := by
    rw [List.getElem?_eq_getElem (by omega), Option.map_some, hnil _ (List.getElem_mem _)]
  have h4 := h3 j i os[i] [] hj (by simp [hi]) hri
  rw [List.nil_append] at h4
  have h5 := hres i ((os[i]).api k) (by simp [hi])
  rw [endOf_iff.mpr h4] at h5
  have hpick : present ((pick (os.map some) order).take (j + 1)) = (pick os order).take (j + 1) := by
    have : pick (os.map some) order = (pick os order).map some := by
      unfold pick
      rw [List.map_filterMap]
      congr 1
      funext n
      simp
    rw [this, ← List.map_take]
    simp only [present, List.filterMap_map]
    exact List.filterMap_some
  rw [hpick] at h5
  generalize Int64.ofInt (start.toInt + total ((pick os order).take (j + 1))) = n at h5 ⊢
  obtain ⟨g, hg, hx⟩ := h5.2 (.integer n) (by cases os[i] <;> simp [Promised, Api.call, CounterOp.api, Value.kind])
    (writeValue_deliverable (v := .integer n) (carriable_deliverable (a := .value (.integer n)) trivial) [])
  rw [hx trivial]
  cases ho : os[i] <;> rw [ho] at hg <;> simp [CounterOp.api, Api.given, Api.understood, orderedValue, Value.kind, numeric] at hg <;> rw [hg]

/-- Two threads decrement by 2 and increment a counter that stands at 40. -/
example : let p := threadsOf (sampleEnv .debug) ([CounterOp.decBy 2, .inc].map (·.api [1])) (sampleDb [([1], .integer 40)])
    (p.exec [0, 1, 1, 0]).db.keys [1] = some (.integer 39) ∧
    (List.range 2).map (endOf (p.exec [0, 1, 1, 0])) =
      [some (.ok (.ok (.value (.integer 38)))), some (.ok (.ok (.value (.integer 39))))] := by decide +kernel

/-! ## Further concrete cases -/

/-- A set, a get and a rename at once. -/
example : ∃ rs, Sees rs [⟨.set, some .bytes, [[1], [7]]⟩, ⟨.get, none, [[1]]⟩, ⟨.rename, none, [[1], [2]]⟩] ∧ (∀ r ∈ rs, r.2 = []) ∧ ∀ sched,
    ((threadsOf (sampleEnv .debug) [.set [1] (.bytes [7]), .get [1], .rename [1] [2]] (sampleDb [])).exec sched).db =
      ((Pool.start (sampleEnv .debug) rs (sampleDb [])).exec sched).db := by
  obtain ⟨rs, h1, h2, h3⟩ := C112_calls (sampleEnv .debug) [.set [1] (.bytes [7]), .get [1], .rename [1] [2]] (by decide) (by decide) (sampleDb [])
  exact ⟨rs, h1, h2, fun s => (h3 s).1⟩

/-- Two client calls on one counter, whatever the schedule. -/
example (sched : List Nat) (hf : ((threadsOf (sampleEnv .release) ([CounterOp.decBy 2, .inc].map (·.api [1])) (sampleDb [([1], .integer 40)])).exec
    sched).finished) : ((threadsOf (sampleEnv .release) ([CounterOp.decBy 2, .inc].map (·.api [1])) (sampleDb [([1], .integer 40)])).exec
    sched).db.keys [1] = some (.integer 39) :=
  (C112_counters (sampleEnv .release) [1] [.decBy 2, .inc] (by decide) (by decide) 40 (sampleDb [([1], .integer 40)]) rfl
    (by intro m; simp [sampleDb]) (.inl rfl) sched hf).1

/-- A call that is refused, beside one that is not. -/
example : let p := threadsOf (sampleEnv .debug) [.get [1], .set [1] (.string [])] (sampleDb [])
    endOf p 1 = some (.ok (.error (.buildingRequest .valueEmpty))) ∧ p.stepAt 1 = p :=
  C112_refused (sampleEnv .debug) (.set [1] (.string [])) (by decide) rfl _ 1 rfl

end Hop
