import Verif.Spec.Futures
import Verif.Spec.Sample

/-! # Requests of the client as futures -/

namespace Hop

open Spec Client.Futures

/-! ## C98 What a request asks for, and when -/

theorem settle_judged {ε} (t : Option KeyType) (g : Got) :
    (settle t g : Poll (Except ε Got)) = judged t (.ready (.ok g)) := by
  cases t with
  | none => cases g <;> rfl
  | some t =>
    cases g with
    | value v =>
      simp only [settle, judged, Option.all_some, decide_eq_true_eq]
    | _ => rfl

/-- The future a request in flight waits for. -/
def inFlight {σ ε} (B : Backend σ ε) (t : Option KeyType) : Option B.State → Block B.State
  | some s => .running s t
  | none => .over

theorem Block.poll_running {σ ε} (B : Backend σ ε) (s : B.State) (t : Option KeyType) (w : σ) :
    (Block.running s t).poll B w = (judged t (B.poll s w).1,
      inFlight B t (onward (B.poll s w).1 (B.poll s w).2.1), (B.poll s w).2.2) := by
  simp only [Block.poll]
  generalize B.poll s w = x
  obtain ⟨p, s', w'⟩ := x
  cases p with
  | pending => rfl
  | panic => rfl
  | ready r =>
    cases r with
    | error e => rfl
    | ok g => simp only [settle_judged]; rfl

theorem pollTimes_flying {σ ε} (B : Backend σ ε) (t : Option KeyType) (n : Nat) (s : Option B.State)
    (r : ClientRequest B.State) (w : σ) (h : r.fut = some (inFlight B t s)) :
    (pollTimes B n r w).1 = (watch B t n s w).1 ∧ (pollTimes B n r w).2.2 = (watch B t n s w).2 := by
  induction n generalizing s r w with
  | zero => exact ⟨rfl, rfl⟩
  | succ n ih =>
    cases s with
    | none =>
      have hp : r.poll B w = (.panic, { r with fut := some .over }, w) := by
        unfold ClientRequest.poll; rw [h]; rfl
      simp only [pollTimes, hp, watch]
      have hw : (watch B t n none w).2 = w := by
        clear ih hp h
        induction n with
        | zero => rfl
        | succ n _ => rfl
      have := ih none { r with fut := some .over } w rfl
      exact ⟨by rw [this.1], by rw [this.2, hw]⟩
    | some s =>
      have hp : r.poll B w = (judged t (B.poll s w).1,
          { r with fut := some (inFlight B t (onward (B.poll s w).1 (B.poll s w).2.1)) },
          (B.poll s w).2.2) := by
        unfold ClientRequest.poll
        rw [h]
        simp only [inFlight, Block.poll_running]
      simp only [pollTimes, hp, watch]
      have := ih (onward (B.poll s w).1 (B.poll s w).2.1)
        { r with fut := some (inFlight B t (onward (B.poll s w).1 (B.poll s w).2.1)) }
        (B.poll s w).2.2 rfl
      exact ⟨by rw [this.1], this.2⟩

/-- A request that has not been polled. -/
structure Fresh {S : Type} (r : ClientRequest S) (a : Api) (t : Option KeyType) : Prop where
  backend : r.backend = true
  fut : r.fut = none
  asks : method r = some a
  typed : r.shape.typed = t

theorem pollTimes_fresh {σ ε} (B : Backend σ ε) {r : ClientRequest B.State} {a : Api} {t : Option KeyType}
    (h : Fresh r a t) (n : Nat) (w : σ) :
    (pollTimes B n r w).1 = (watch B t n (some (B.start a)) w).1 ∧
      (pollTimes B n r w).2.2 = (watch B t n (some (B.start a)) w).2 := by
  cases n with
  | zero => exact ⟨rfl, rfl⟩
  | succ n =>
    have hp : r.poll B w = (judged t (B.poll (B.start a) w).1,
        { emptied r with fut := some (inFlight B t
            (onward (B.poll (B.start a) w).1 (B.poll (B.start a) w).2.1)) },
        (B.poll (B.start a) w).2.2) := by
      unfold ClientRequest.poll
      rw [h.fut]
      simp only [h.backend, if_true, h.asks, h.typed, Block.poll_running]
    simp only [pollTimes, hp, watch]
    have := pollTimes_flying B t n
      (onward (B.poll (B.start a) w).1 (B.poll (B.start a) w).2.1)
      { emptied r with fut := some (inFlight B t
            (onward (B.poll (B.start a) w).1 (B.poll (B.start a) w).2.1)) }
      (B.poll (B.start a) w).2.2 rfl
    exact ⟨by rw [this.1], this.2⟩

theorem foldl_byAmount {S : Type} (amounts : List Value) (r : ClientRequest S) :
    amounts.foldl byAmount r = { r with amount := amounts.getLast?.getD r.amount } := by
  induction amounts generalizing r with
  | nil => rfl
  | cons a as ih =>
    simp only [List.foldl_cons, ih, byAmount, List.getLast?_cons, Option.getD_some]

theorem foldl_withType {S : Type} (types : List KeyType) (r : ClientRequest S) :
    types.foldl withType r = { r with kind := types.getLast?.or r.kind } := by
  induction types generalizing r with
  | nil => rfl
  | cons a as ih =>
    simp only [List.foldl_cons, ih, withType, List.getLast?_cons]
    cases as.getLast? <;> rfl

theorem lastAmount_eq (t : KeyType) (amounts : List Value) : amounts.getLast?.getD (one t) = lastAmount t amounts := by
  unfold lastAmount
  cases amounts.getLast? with
  | some v => rfl
  | none => cases t <;> rfl

/-- C98. A chain of calls on the client never panics. It gives a request, or a refusal, which only `keys(..)`
does, for no keys and for more than 255. -/
theorem C98_configured (S : Type) (c : Chain) :
    match c.checked with
    | none => ∃ r, c.write S = some (.ok r)
    | some ks =>
      if ks.length = 0 then c.write S = some (.error .noKeys)
      else if ks.length > 255 then c.write S = some (.error .tooManyKeys)
      else ∃ r, c.write S = some (.ok r) := by
  have hk : ∀ (shape : Shape) (ks : List Bytes) (x : Option (Except Client.ConfigError (ClientRequest S))),
      x = some ((Client.checkKeys ks).map fun ks => { blank S shape with keys := some ks }) →
      if ks.length = 0 then x = some (.error .noKeys)
      else if ks.length > 255 then x = some (.error .tooManyKeys) else ∃ r, x = some (.ok r) := by
    intro shape ks x hx
    subst hx
    unfold Client.checkKeys
    by_cases h0 : ks = []
    · subst h0; rfl
    · have : ks.length ≠ 0 := by simpa using h0
      rw [if_neg this, if_neg h0]
      split
      · rfl
      · exact ⟨_, rfl⟩
  cases c with
  | existsKeys ks => exact hk .exists ks _ rfl
  | isKeys t ks => exact hk (.is t) ks _ rfl
  | _ => exact ⟨_, rfl⟩

theorem Chain.fresh {S : Type} {c : Chain} {r : ClientRequest S} (h : c.write S = some (.ok r)) :
    Fresh r c.asks c.expects := by
  have hk : ∀ (shape : Shape) (ks : List Bytes),
      some ((Client.checkKeys ks).map fun ks => { blank S shape with keys := some ks }) = some (.ok r) →
      r = { blank S shape with keys := some ks } := by
    intro shape ks h
    simp only [Option.some.injEq] at h
    unfold Client.checkKeys at h
    split at h
    · simp [Except.map] at h
    · split at h
      · simp [Except.map] at h
      · simp only [Except.map, Except.ok.injEq] at h; exact h.symm
  cases c with
  | existsKeys ks => rw [hk .exists ks h]; exact ⟨rfl, rfl, rfl, rfl⟩
  | isKeys t ks => rw [hk (.is t) ks h]; exact ⟨rfl, rfl, rfl, rfl⟩
  | incrementAs k t amounts =>
    simp only [Chain.write, incrementAs, ofKey, blank, if_true, Option.map_some, Option.some.injEq,
      Except.ok.injEq, foldl_byAmount, lastAmount_eq] at h
    subst h
    exact ⟨rfl, rfl, rfl, rfl⟩
  | decrementAs k t amounts =>
    simp only [Chain.write, decrementAs, ofKey, blank, if_true, Option.map_some, Option.some.injEq,
      Except.ok.injEq, foldl_byAmount, lastAmount_eq] at h
    subst h
    exact ⟨rfl, rfl, rfl, rfl⟩
  | length k types =>
    simp only [Chain.write, Option.some.injEq, Except.ok.injEq, foldl_withType] at h
    subst h
    refine ⟨rfl, rfl, ?_, rfl⟩
    simp only [method, ofKey, blank, Chain.asks, Option.or_none]
  | _ =>
    simp only [Chain.write, Option.some.injEq, Except.ok.injEq, getAs, ofKey, blank, if_true, Option.map_some] at h
    subst h
    exact ⟨rfl, rfl, rfl, rfl⟩

/-- C98. Whatever the backend, polling the request a chain made, any number of times, is polling the one call
the chain asks for: the same answers (a panic if the answer has another type than the chain names) and the
same effects on the world. Nothing happens before the first poll, the call is made once, and polls after the
end are panics without an effect. -/
theorem C98_one_call {σ ε} (B : Backend σ ε) (c : Chain) (r : ClientRequest B.State) (h : c.write B.State = some (.ok r))
    (n : Nat) (w : σ) :
    (pollTimes B n r w).1 = (watch B c.expects n (some (B.start c.asks)) w).1 ∧
      (pollTimes B n r w).2.2 = (watch B c.expects n (some (B.start c.asks)) w).2 :=
  pollTimes_fresh B (Chain.fresh h) n w

/-- C98. With the in-memory backend the first poll carries out the call to its end; all later ones panic and
do nothing. -/
theorem C98_memory (env : Env) (c : Chain) (r : ClientRequest (memory env).State)
    (h : c.write (memory env).State = some (.ok r)) (n : Nat) (db : Db) :
    pollTimes (memory env) 0 r db = ([], r, db) ∧
    (pollTimes (memory env) (n + 1) r db).1 =
      judged c.expects (atOnce ((c.asks.start env).run db).1) ::
        List.replicate n .panic ∧
    (pollTimes (memory env) (n + 1) r db).2.2 = ((c.asks.start env).run db).2 := by
  have hover : ∀ t n db, watch (memory env) t n none db = (List.replicate n .panic, db) := by
    intro t n db
    induction n with
    | zero => rfl
    | succ n ih => simp only [watch, ih, List.replicate_succ]
  have hp : ∀ a : Api, ∃ st : (memory env).State, (memory env).poll ((memory env).start a) db =
      (atOnce ((a.start env).run db).1, st, ((a.start env).run db).2) := by
    intro a
    refine ⟨(none : Option Api), ?_⟩
    simp only [memory]
    generalize (a.start env).run db = x
    obtain ⟨o, db'⟩ := x
    cases o <;> rfl
  refine ⟨rfl, ?_⟩
  obtain ⟨h1, h2⟩ := C98_one_call (memory env) c r h (n + 1) db
  rw [h1, h2]
  obtain ⟨st, hst⟩ := hp c.asks
  simp only [watch, hst]
  have hno : ∀ (o : Outcome DispatchError (Except Client.Error Got)) (x : (memory env).State),
      onward (atOnce o) x = none := by
    intro o x; cases o <;> rfl
  rw [hno, hover]
  exact ⟨rfl, rfl⟩

/-! ## C99 Configuring a request that is under way -/

/-- C99. Naming a type for a `get`, `increment` or `decrement` request panics if and only if the request has
been polled before. -/
theorem C99_types_after_poll {σ ε} (B : Backend σ ε) (k : Bytes) (t : KeyType) (n : Nat) (w : σ) :
    ((getAs (pollTimes B n (ofKey (.get none) k) w).2.1 t = none) ↔ 0 < n) ∧
    ((incrementAs (pollTimes B n (ofKey .increment k) w).2.1 t = none) ↔ 0 < n) ∧
    ((decrementAs (pollTimes B n (ofKey .decrement k) w).2.1 t = none) ↔ 0 < n) := by
  have flying : ∀ n (r : ClientRequest B.State) (w : σ), r.fut ≠ none → r.backend = false →
      (pollTimes B n r w).2.1.backend = false := by
    intro n
    induction n with
    | zero => intro r w _ hb; exact hb
    | succ n ih =>
      intro r w hf hb
      simp only [pollTimes]
      cases hfu : r.fut with
      | none => exact absurd hfu hf
      | some b =>
        have : r.poll B w = ((b.poll B w).1, { r with fut := some (b.poll B w).2.1 }, (b.poll B w).2.2) := by
          unfold ClientRequest.poll; rw [hfu]
        rw [this]
        exact ih _ _ (by simp) hb
  have key : ∀ (shape : Shape) (a : Api), method (ofKey (S := B.State) shape k) = some a → 0 < n →
      (pollTimes B n (ofKey shape k) w).2.1.backend = false := by
    intro shape a ha hn
    cases n with
    | zero => omega
    | succ n =>
      simp only [pollTimes]
      have : (ofKey (S := B.State) shape k).poll B w =
          (((Block.running (B.start a) shape.typed).poll B w).1,
            { emptied (ofKey (S := B.State) shape k) with
              fut := some ((Block.running (B.start a) shape.typed).poll B w).2.1 },
            ((Block.running (B.start a) shape.typed).poll B w).2.2) := by
        unfold ClientRequest.poll
        simp only [ha]
        rfl
      rw [this]
      exact flying n _ _ (by simp) rfl
  refine ⟨⟨?_, ?_⟩, ⟨?_, ?_⟩, ⟨?_, ?_⟩⟩
  · intro h; cases n with
    | zero => simp [pollTimes, getAs, ofKey, blank] at h
    | succ n => omega
  · intro h; rw [getAs, key _ _ rfl h]; rfl
  · intro h; cases n with
    | zero => simp [pollTimes, incrementAs, ofKey, blank] at h
    | succ n => omega
  · intro h; rw [incrementAs, key _ _ rfl h]; rfl
  · intro h; cases n with
    | zero => simp [pollTimes, decrementAs, ofKey, blank] at h
    | succ n => omega
  · intro h; rw [decrementAs, key _ _ rfl h]; rfl

/-! ## C100 Connecting -/

/-- C100 as promised by its signature: `connect` resolves to what connecting gave, a client or an error. -/
def C100_Statement : Prop :=
  ∀ (α ε : Type) (attempt : Except ε α),
    connect attempt = match attempt with | .ok a => .ok a | .error e => .err e

theorem C100_false : ¬ C100_Statement := by
  intro h
  have := h Unit Unit (.error ())
  simp [connect] at this

/-- C100, the part that holds: a connection that is established is returned; any failure is a panic. -/
theorem C100_connected_partial {α ε : Type} (attempt : Except ε α) :
    (∀ a, attempt = .ok a → connect attempt = .ok a) ∧ ((∃ e, attempt = .error e) → connect attempt = .panic) := by
  cases attempt with
  | ok a => exact ⟨fun b h => by cases h; rfl, fun ⟨e, h⟩ => by cases h⟩
  | error e => exact ⟨fun b h => (by cases h), fun _ => rfl⟩

/-! ## Concrete cases -/

/-- `client.increment("k").int().by(5).by(7)`, polled twice. -/
example (r : ClientRequest (memory (sampleEnv .debug)).State)
    (h : (Chain.incrementAs [107] .integer [.integer 5, .integer 7]).write (memory (sampleEnv .debug)).State = some (.ok r)) :
    (pollTimes (memory (sampleEnv .debug)) 2 r (sampleDb [])).1 =
      [.ready (.ok (.value (.integer 7))), .panic] := by
  have := (C98_memory (sampleEnv .debug) _ r h 1 (sampleDb [])).2.1
  rw [this]
  decide +kernel

/-- `client.get("k").str()` when the key holds an integer. -/
example (r : ClientRequest (memory (sampleEnv .debug)).State)
    (h : (Chain.getAs [107] .string).write (memory (sampleEnv .debug)).State = some (.ok r)) :
    (pollTimes (memory (sampleEnv .debug)) 1 r (sampleDb [([107], .integer 5)])).1 = [.panic] := by
  have := (C98_memory (sampleEnv .debug) _ r h 0 (sampleDb [([107], .integer 5)])).2.1
  rw [this]
  decide +kernel

/-- A backend that needs two polls, counting them. -/
def slowBackend : Backend Nat Unit where
  State := Nat × Api
  start a := (0, a)
  poll s w :=
    if s.1 = 0 then (.pending, (1, s.2), w + 1) else (.ready (.ok (.bool true)), (2, s.2), w + 1)

/-- `client.exists().keys(["a", "b"])`, polled four times: two polls reach the backend. -/
example (r : ClientRequest slowBackend.State)
    (h : (Chain.existsKeys [[97], [98]]).write slowBackend.State = some (.ok r)) :
    (pollTimes slowBackend 4 r 0).1 = [.pending, .ready (.ok (.bool true)), .panic, .panic] ∧
      (pollTimes slowBackend 4 r 0).2.2 = 2 := by
  obtain ⟨h1, h2⟩ := C98_one_call slowBackend _ r h 4 0
  rw [h1, h2]
  constructor <;> decide +kernel

end Hop
