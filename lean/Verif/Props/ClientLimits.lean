import Verif.Props.Client
import Verif.Props.ClientServer

/-! # Client calls with more arguments than a request can hold -/

namespace Hop

open Spec Prog

/-- The most arguments a request can hold: the count is a byte whose overflow is an error in debug builds
only, and there is room for the positions of 256 arguments. -/
def mostArgs : Mode → Nat
  | .debug => 255
  | .release => 256

/-- A builder that was given `n` arguments. -/
structure Filled (m : Mode) (b : Builder) (n : Nat) : Prop where
  positions : b.positions.length = n
  room : n ≤ mostArgs m
  count : m = .debug → b.argumentCount = n

theorem Filled.new (m : Mode) (c : CommandId) (kt : Option KeyType) : Filled m (Builder.newWithKeyType c kt) 0 :=
  ⟨rfl, Nat.zero_le _, fun _ => rfl⟩

theorem Filled.push {m : Mode} {b b' : Builder} {n : Nat} (h : Filled m b n) {a : Bytes}
    (hb : b.pushArgument m a = some b') : Filled m b' (n + 1) := by
  obtain ⟨hp, hr, hc⟩ := h
  unfold Builder.pushArgument at hb
  dsimp only at hb
  split at hb
  · simp at hb
  · rename_i count hadd
    split at hb
    · split at hb
      · rename_i hlt
        simp only [Option.some.injEq] at hb
        subst hb
        refine ⟨by simp [hp], ?_, ?_⟩
        · cases m with
          | release => simp only [mostArgs]; omega
          | debug =>
            rw [hc rfl] at hadd
            simp only [addU] at hadd
            split at hadd
            · simp only [mostArgs]; omega
            · simp at hadd
        · rintro rfl
          rw [hc rfl] at hadd
          simp only [addU] at hadd
          split at hadd
          · simpa using hadd.symm
          · simp at hadd
      · simp at hb
    · simp at hb

theorem Filled.pushAll {m : Mode} {b : Builder} {n : Nat} (h : Filled m b n) (as : List Bytes) :
    (∃ b', b.pushAll m as = (.ok (), b') ∧ Filled m b' (n + as.length)) ∨ ∃ b', b.pushAll m as = (.panic, b') := by
  induction as generalizing b n with
  | nil => exact .inl ⟨b, rfl, h⟩
  | cons a as ih =>
    simp only [Builder.pushAll]
    cases hb : b.pushArgument m a with
    | none => exact .inr ⟨b, rfl⟩
    | some b' =>
      have := ih (h.push hb)
      rwa [show n + 1 + as.length = n + (a :: as).length by simp only [List.length_cons]; omega] at this

/-- The three ways a builder call ends. -/
inductive BuilderEnds (m : Mode) (n : Nat) : Builder.Res → Prop where
  | ok {b} : Filled m b n → BuilderEnds m n (.ok (), b)
  | panic {b} : BuilderEnds m n (.panic, b)
  | err {e b} : BuilderEnds m n (.err e, b)

theorem Filled.pushAll_ends {m : Mode} {b : Builder} {n : Nat} (h : Filled m b n) (as : List Bytes) :
    BuilderEnds m (n + as.length) (b.pushAll m as) := by
  rcases h.pushAll as with ⟨b', h1, h2⟩ | ⟨b', h1⟩
  · rw [h1]; exact .ok h2
  · rw [h1]; exact .panic

theorem Filled.bytes {m : Mode} {b : Builder} {n : Nat} (h : Filled m b n) (a : Bytes) :
    BuilderEnds m (n + 1) (b.bytes m a) := by
  unfold Builder.bytes
  split
  · exact .err
  · exact h.pushAll_ends [a]

theorem Filled.bytesAll {m : Mode} {b : Builder} {n : Nat} (h : Filled m b n) (as : List Bytes) :
    BuilderEnds m (n + as.length) (b.bytesAll m as) := by
  induction as generalizing b n with
  | nil => exact .ok h
  | cons a as ih =>
    simp only [Builder.bytesAll]
    have h1 := h.bytes a
    generalize b.bytes m a = r at h1
    cases h1 with
    | ok h2 =>
      have := ih h2
      rwa [show n + 1 + as.length = n + (a :: as).length by simp only [List.length_cons]; omega] at this
    | panic => exact .panic
    | err => exact .err

theorem Filled.pushItems {m : Mode} {b : Builder} {n : Nat} (h : Filled m b n) (as : List Bytes) :
    BuilderEnds m (n + as.length) (b.pushItems m as) := by
  induction as generalizing b n with
  | nil => exact .ok h
  | cons a as ih =>
    simp only [Builder.pushItems]
    split
    · exact .err
    · cases hb : b.pushArgument m a with
      | none => exact .panic
      | some b' =>
        have := ih (h.push hb)
        rwa [show n + 1 + as.length = n + (a :: as).length by simp only [List.length_cons]; omega] at this

theorem Filled.value {b : Builder} {n : Nat} {env : Env} (h : Filled env.mode b n) (v : Value) :
    BuilderEnds env.mode (n + (spelled env v).length) (b.value env v) := by
  cases v with
  | boolean x => exact h.pushAll_ends _
  | float x => exact h.pushAll_ends _
  | integer x => exact h.pushAll_ends _
  | bytes x =>
    simp only [Builder.value]
    split
    · exact .err
    · exact h.pushAll_ends _
  | string x =>
    simp only [Builder.value]
    split
    · exact .err
    · exact h.pushAll_ends _
  | list l =>
    simp only [Builder.value]
    split
    · exact .err
    · exact h.pushItems _
  | map l =>
    simp only [Builder.value]
    split
    · exact .err
    · split
      · exact .err
      · simp only [spelled, alternating_eq]; exact h.pushAll_ends _
  | set l =>
    simp only [Builder.value]
    split
    · exact .err
    · split
      · exact .err
      · exact h.pushAll_ends _

/-! ## Neither backend gets to send such a request -/

/-- A call that ends at once, in an error or a panic. -/
def Fails (p : Client.Job Got) : Prop := p = Client.panic ∨ ∃ e, p = Client.throw e

/-- A call that writes nothing and ends in an error or a panic. -/
def FailsRemote (p : Client.Server.Job Got) : Prop := p = ([], .panic) ∨ ∃ e, p = ([], .err e)

theorem BuilderEnds.fails {m : Mode} {n : Nat} {r : Builder.Res} (h : BuilderEnds m n r) {f : Builder → Client.Job Got}
    (hf : ∀ b, Filled m b n → Fails (f b)) : Fails (Client.built r f) := by
  cases h with
  | ok h => exact hf _ h
  | panic => exact .inl rfl
  | err => exact .inr ⟨_, rfl⟩

theorem BuilderEnds.failsRemote {m : Mode} {n : Nat} {r : Builder.Res} (h : BuilderEnds m n r)
    {f : Builder → Client.Server.Job Got} (hf : ∀ b, Filled m b n → FailsRemote (f b)) :
    FailsRemote (Client.Server.built r f) := by
  cases h with
  | ok h => exact hf _ h
  | panic => exact .inl rfl
  | err => exact .inr ⟨_, rfl⟩

theorem Filled.full {P : Prop} {m : Mode} {b : Builder} {n k : Nat} (h : Filled m b n) (hk : mostArgs m < k)
    (he : k = n) : P := absurd h.room (by omega)

theorem mostArgs_ge (m : Mode) : 255 ≤ mostArgs m := by cases m <;> decide

theorem Api.start_fails (env : Env) (a : Api) (hn : mostArgs env.mode < (a.call env).args.length) :
    Fails (a.start env) := by
  have hm := mostArgs_ge env.mode
  cases a with
  | append k v =>
    simp only [Api.call, List.length_cons] at hn
    simp only [Api.start, Client.append, wrap_built]
    refine ((Filled.new env.mode _ _).bytes k).fails fun b hb => ?_
    cases v with
    | list l =>
      simp only [wrap_built]
      exact (hb.bytesAll l).fails fun b' hb' => hb'.full hn (by simp only [spelled]; omega)
    | bytes x => simp only [spelled, List.length_singleton] at hn; omega
    | string x => simp only [spelled, List.length_singleton] at hn; omega
    | _ => exact .inr ⟨_, rfl⟩
  | set k v =>
    simp only [Api.call, List.length_cons] at hn
    simp only [Api.start, Client.set, wrap_built]
    refine ((Filled.new env.mode _ _).bytes k).fails fun b hb => ?_
    exact (hb.value v).fails fun b' hb' => hb'.full hn (by omega)
  | incrementBy k v =>
    simp only [Api.call, List.length_cons] at hn
    simp only [Api.start, Client.incrementBy, wrap_built]
    refine ((Filled.new env.mode _ _).bytes k).fails fun b hb => ?_
    split
    · exact .inr ⟨_, rfl⟩
    · rw [wrap_built]
      exact (hb.value v).fails fun b' hb' => hb'.full hn (by omega)
  | decrementBy k v =>
    simp only [Api.call, List.length_cons] at hn
    simp only [Api.start, Client.decrementBy, wrap_built]
    refine ((Filled.new env.mode _ _).bytes k).fails fun b hb => ?_
    split
    · exact .inr ⟨_, rfl⟩
    · rw [wrap_built]
      exact (hb.value v).fails fun b' hb' => hb'.full hn (by omega)
  | «exists» ks =>
    simp only [Api.call] at hn
    simp only [Api.start, Client.exists, wrap_built, Builder.new_eq]
    exact ((Filled.new env.mode _ _).bytesAll ks).fails fun b' hb' => hb'.full hn (by omega)
  | is t ks =>
    simp only [Api.call] at hn
    simp only [Api.start, Client.is, wrap_built]
    exact ((Filled.new env.mode _ _).bytesAll ks).fails fun b' hb' => hb'.full hn (by omega)
  | _ => simp only [Api.call, List.length_cons, List.length_nil] at hn; omega

theorem Api.serve_fails (env : Env) (fuel : Nat) (c : Client.Server.Conn) (a : Api)
    (hn : mostArgs env.mode < (a.call env).args.length) : FailsRemote (a.serve env fuel c) := by
  have hm := mostArgs_ge env.mode
  cases a with
  | append k v =>
    simp only [Api.call, List.length_cons] at hn
    simp only [Api.serve, Api.serveBy, Client.Server.append, wrapRemote_built]
    refine ((Filled.new env.mode _ _).bytes k).failsRemote fun b hb => ?_
    cases v with
    | list l =>
      simp only [wrapRemote_built]
      exact (hb.bytesAll l).failsRemote fun b' hb' => hb'.full hn (by simp only [spelled]; omega)
    | bytes x => simp only [spelled, List.length_singleton] at hn; omega
    | string x => simp only [spelled, List.length_singleton] at hn; omega
    | _ => exact .inr ⟨_, rfl⟩
  | set k v =>
    simp only [Api.call, List.length_cons] at hn
    simp only [Api.serve, Api.serveBy, Client.Server.set, wrapRemote_built]
    refine ((Filled.new env.mode _ _).bytes k).failsRemote fun b hb => ?_
    exact (hb.value v).failsRemote fun b' hb' => hb'.full hn (by omega)
  | incrementBy k v =>
    simp only [Api.call, List.length_cons] at hn
    simp only [Api.serve, Api.serveBy, Client.Server.incrementBy]
    split
    · exact .inr ⟨_, rfl⟩
    · simp only [wrapRemote_built]
      refine ((Filled.new env.mode _ _).bytes k).failsRemote fun b hb => ?_
      exact (hb.value v).failsRemote fun b' hb' => hb'.full hn (by omega)
  | decrementBy k v =>
    simp only [Api.call, List.length_cons] at hn
    simp only [Api.serve, Api.serveBy, Client.Server.decrementBy, wrapRemote_built]
    refine ((Filled.new env.mode _ _).bytes k).failsRemote fun b hb => ?_
    split
    · exact .inr ⟨_, rfl⟩
    · rw [wrapRemote_built]
      exact (hb.value v).failsRemote fun b' hb' => hb'.full hn (by omega)
  | «exists» ks =>
    simp only [Api.call] at hn
    simp only [Api.serve, Api.serveBy, Client.Server.exists, wrapRemote_built, Builder.new_eq]
    exact ((Filled.new env.mode _ _).bytesAll ks).failsRemote fun b' hb' => hb'.full hn (by omega)
  | is t ks =>
    simp only [Api.call] at hn
    simp only [Api.serve, Api.serveBy, Client.Server.is, wrapRemote_built]
    exact ((Filled.new env.mode _ _).bytesAll ks).failsRemote fun b' hb' => hb'.full hn (by omega)
  | _ => simp only [Api.call, List.length_cons, List.length_nil] at hn; omega

/-! ## C97 -/

/-- C97. A call whose command needs more arguments than a request can hold (256 in a release build, 255 in a
debug build) fails, by an error or by a panic, and changes nothing: not a key, not a counter. -/
theorem C97_too_many (env : Env) (a : Api) (db : Db) (hn : mostArgs env.mode < (a.call env).args.length) :
    (a.start env).run db = (.panic, db) ∨ ∃ e, (a.start env).run db = (.ok (.error e), db) := by
  rcases Api.start_fails env a hn with h | ⟨e, h⟩
  · exact .inl (by rw [h]; rfl)
  · exact .inr ⟨e, by rw [h]; rfl⟩

/-- C97. Nor does the server backend send anything for it, whatever the connection. -/
theorem C97_nothing_sent (env : Env) (fuel : Nat) (c : Client.Server.Conn) (a : Api)
    (hn : mostArgs env.mode < (a.call env).args.length) :
    a.serve env fuel c = ([], .panic) ∨ ∃ e, a.serve env fuel c = ([], .err e) :=
  Api.serve_fails env fuel c a hn


/-- The number of items or entries of a list, map or set given to `set`. -/
def Spec.Api.entries : Api → Nat
  | .set _ (.list l) => l.length
  | .set _ (.map m) => m.length
  | .set _ (.set s) => s.length
  | _ => 0

theorem Filled.pushAll_over {m : Mode} {b : Builder} {n : Nat} (h : Filled m b n) (as : List Bytes)
    (ho : mostArgs m < n + as.length) : ∃ b', b.pushAll m as = (.panic, b') := by
  rcases h.pushAll as with ⟨b', -, h2⟩ | h
  · exact h2.full ho rfl
  · exact h

theorem bytes_pushAll {m : Mode} {b : Builder} {a : Bytes} (h : a ≠ []) : b.bytes m a = b.pushAll m [a] := by
  simp only [Builder.bytes, if_neg h]

theorem bytesAll_pushAll {m : Mode} {b : Builder} {as : List Bytes} (h : [] ∉ as) :
    b.bytesAll m as = b.pushAll m as := by
  induction as generalizing b with
  | nil => rfl
  | cons a as ih =>
    simp only [List.mem_cons, not_or] at h
    simp only [Builder.bytesAll, Builder.pushAll, bytes_pushAll (Ne.symm h.1)]
    cases hb : b.pushArgument m a with
    | none => rfl
    | some b' => exact ih h.2

theorem pushItems_pushAll {m : Mode} {b : Builder} {as : List Bytes} (h : [] ∉ as) :
    b.pushItems m as = b.pushAll m as := by
  induction as generalizing b with
  | nil => rfl
  | cons a as ih =>
    simp only [List.mem_cons, not_or] at h
    simp only [Builder.pushItems, Builder.pushAll, if_neg (Ne.symm h.1)]
    cases hb : b.pushArgument m a with
    | none => rfl
    | some b' => exact ih h.2

theorem not_hollow_list {l : List Bytes} (h : hollow (.list l) = false) : [] ∉ l := by
  intro hl
  have : hollow (.list l) = true := by
    simp only [hollow, List.any_eq_true, List.isEmpty_iff]
    exact ⟨[], hl, rfl⟩
  rw [this] at h; cases h

/-- C97. More exactly: a call that would be accepted if it had fewer arguments panics, except that `set`
notices the excess, and reports it, when the number of items or entries is 255 modulo 256. -/
theorem C97_panics (env : Env) (a : Api) (db : Db) (hr : a.refusal = none)
    (hn : mostArgs env.mode < (a.call env).args.length) :
    (a.start env).run db =
      (if a.entries % 256 = 255 then .ok (.error (.buildingRequest .tooManyArguments)) else .panic, db) := by
  have hm := mostArgs_ge env.mode
  cases a with
  | append k v =>
    simp only [Api.call, List.length_cons] at hn
    simp only [Api.refusal] at hr
    by_cases hk : k = []
    · simp [hk] at hr
    simp only [if_neg hk] at hr
    obtain ⟨b, h1, h2⟩ := one_arg env.mode .append (some v.kind) k rfl hk
    have h3 : Filled env.mode b 1 := ⟨by simp [h2.positions], by omega, fun _ => h2.count⟩
    cases v with
    | list l =>
      simp only [Value.kind, appendable, Bool.not_true, Bool.false_eq_true, if_false] at hr
      have hh : hollow (.list l) = false := by
        cases h : hollow (.list l) with
        | false => rfl
        | true => rw [h] at hr; simp at hr
      obtain ⟨b', hb'⟩ := h3.pushAll_over l (by simp only [spelled] at hn; omega)
      rw [← bytesAll_pushAll (not_hollow_list hh)] at hb'
      simp only [Api.start, Client.append, wrap_built, built_ok h1, built_panic hb']
      rfl
    | bytes x => simp only [spelled, List.length_singleton] at hn; omega
    | string x => simp only [spelled, List.length_singleton] at hn; omega
    | _ => simp [Value.kind, appendable] at hr
  | set k v =>
    simp only [Api.call, List.length_cons] at hn
    simp only [Api.refusal] at hr
    by_cases hk : k = []
    · simp [hk] at hr
    simp only [if_neg hk] at hr
    have hh : hollow v = false := by
      cases h : hollow v with
      | false => rfl
      | true => rw [h] at hr; simp at hr
    obtain ⟨b, h1, h2⟩ := one_arg env.mode .set (some v.kind) k rfl hk
    have h3 : Filled env.mode b 1 := ⟨by simp [h2.positions], by omega, fun _ => h2.count⟩
    have h4 : ∀ n, b.wouldOverfill (n % 256) = decide (n % 256 = 255) := by
      intro n
      simp only [Builder.wouldOverfill, h2.count, List.length_singleton]
      by_cases h : n % 256 = 255
      · simp [h]
      · simp only [h, decide_false, decide_eq_false_iff_not]; omega
    simp only [Api.start, Client.set, wrap_built, built_ok h1]
    cases v with
    | list l =>
      obtain ⟨b', hb'⟩ := h3.pushAll_over l (by simp only [spelled] at hn; omega)
      rw [← pushItems_pushAll (not_hollow_list hh)] at hb'
      rw [show (Api.set k (.list l)).entries = l.length from rfl]
      simp only [Builder.value, h4, decide_eq_true_eq]
      split
      · rfl
      · rw [built_panic hb']; rfl
    | map l =>
      obtain ⟨b', hb'⟩ := h3.pushAll_over (alternating (env.mapOrd l)) (by simp only [spelled] at hn; omega)
      have hl : l ≠ [] := by rintro rfl; simp [hollow] at hh
      rw [show (Api.set k (.map l)).entries = List.length l from rfl]
      simp only [Builder.value, h4, decide_eq_true_eq, if_neg hl, ← alternating_eq]
      split
      · rfl
      · rw [built_panic hb']; rfl
    | set l =>
      obtain ⟨b', hb'⟩ := h3.pushAll_over (env.setOrd l) (by simp only [spelled] at hn; omega)
      have hl : l ≠ [] := by rintro rfl; simp [hollow] at hh
      rw [show (Api.set k (.set l)).entries = List.length l from rfl]
      simp only [Builder.value, h4, decide_eq_true_eq, if_neg hl]
      split
      · rfl
      · rw [built_panic hb']; rfl
    | _ => simp only [spelled, List.length_singleton] at hn; omega
  | incrementBy k v =>
    simp only [Api.refusal] at hr
    by_cases hk : k = []
    · simp [hk] at hr
    simp only [if_neg hk] at hr
    cases v <;> first
      | (simp only [Api.call, spelled, List.length_cons, List.length_singleton, List.length_nil] at hn; omega)
      | simp [Value.kind, numeric] at hr
  | decrementBy k v =>
    simp only [Api.refusal] at hr
    by_cases hk : k = []
    · simp [hk] at hr
    simp only [if_neg hk] at hr
    cases v <;> first
      | (simp only [Api.call, spelled, List.length_cons, List.length_singleton, List.length_nil] at hn; omega)
      | simp [Value.kind, numeric] at hr
  | «exists» ks =>
    simp only [Api.call] at hn
    simp only [Api.refusal] at hr
    have hk : [] ∉ ks := by intro h; simp [h] at hr
    obtain ⟨b', hb'⟩ := (Filled.new env.mode .exists none).pushAll_over ks (by omega)
    rw [← bytesAll_pushAll hk] at hb'
    simp only [Api.start, Client.exists, wrap_built, Builder.new_eq, built_panic hb']
    rfl
  | is t ks =>
    simp only [Api.call] at hn
    simp only [Api.refusal] at hr
    have hk : [] ∉ ks := by intro h; simp [h] at hr
    obtain ⟨b', hb'⟩ := (Filled.new env.mode .is (some t)).pushAll_over ks (by omega)
    rw [← bytesAll_pushAll hk] at hb'
    simp only [Api.start, Client.is, wrap_built, built_panic hb']
    rfl
  | _ => simp only [Api.call, List.length_cons, List.length_nil] at hn; omega

/-! ## Exactly 256 arguments in a release build -/

theorem BInv.push_256 {b : Builder} {c kt args} (h : BInv b c kt args) (a : Bytes) (hn : args.length = 255) :
    ∃ b', b.pushArgument .release a = some b' ∧ BInv { b' with argumentCount := 256 } c kt (args ++ [a]) := by
  obtain ⟨h1, h2, h3, h4, h5⟩ := h
  have hadd : addU .release 8 b.argumentCount 1 = some 0 := by rw [h3, hn]; rfl
  have hb : b.base = baseOf kt := by simp [Builder.base, baseOf, h2]
  have hlen : (encode c kt args).length = 2 + baseOf kt + argsSize args := by
    simp only [encode, List.length_append, encodeHead_length, List.length_singleton, argsSize]; omega
  have hlt : 1 + b.base < (b.buf ++ beBytes 4 (a.length % 2 ^ 32) ++ a).length := by
    rw [h4, hb]; simp only [List.length_append, hlen, beBytes_length]; omega
  have hp : b.positions.length < 256 := by rw [h5, positionsOf_length]; omega
  have hpush : b.pushArgument .release a = some
      { b with
        argumentCount := 0
        buf := (b.buf ++ beBytes 4 (a.length % 2 ^ 32) ++ a).set (1 + b.base) (UInt8.ofNat 0)
        positions := b.positions ++ [match b.positions.getLast? with
          | some position => position + 4 + a.length
          | none => b.base + 1 + 4 + a.length] } := by
    unfold Builder.pushArgument
    simp only [hadd, if_pos hlt, if_pos hp]
    cases b.positions.getLast? <;> rfl
  refine ⟨_, hpush, h1, h2, by simp [hn], ?_, ?_⟩
  · simp only
    rw [h4, hb]
    have : beBytes 4 (a.length % 2 ^ 32) = beBytes 4 a.length := beBytes_mod 4 a.length
    rw [this]
    simp only [encode, List.append_assoc]
    rw [List.set_append_right _ _ (Nat.le_of_eq (encodeHead_length c kt))]
    simp [encodeHead_length, encodeArg, hn]
  · simp only
    rw [h5, positionsOf_append, positionsOf_getLast?, hb]
    by_cases hnil : args = []
    · subst hnil; simp at hn
    · simp [hnil, positionsOf]

theorem pushAll_snoc {m : Mode} {b b' b'' : Builder} {as : List Bytes} {a : Bytes}
    (h : b.pushAll m as = (.ok (), b')) (ha : b'.pushArgument m a = some b'') :
    b.pushAll m (as ++ [a]) = (.ok (), b'') := by
  induction as generalizing b with
  | nil =>
    simp only [Builder.pushAll, Prod.mk.injEq, true_and] at h
    subst h
    simp only [List.nil_append, Builder.pushAll, ha]
  | cons x as ih =>
    simp only [Builder.pushAll, List.cons_append] at h ⊢
    cases hb : b.pushArgument m x with
    | none => rw [hb] at h; simp at h
    | some b1 => rw [hb] at h; exact ih h

/-- A request of exactly 256 arguments in a release build. -/
theorem BInv.pushAll_256 {b : Builder} {c kt args} (h : BInv b c kt args) (as : List Bytes)
    (hn : args.length + as.length = 256) (hne : as ≠ []) :
    ∃ b', b.pushAll .release as = (.ok (), b') ∧ BInv { b' with argumentCount := 256 } c kt (args ++ as) := by
  obtain ⟨init, last, rfl⟩ : ∃ init last, as = init ++ [last] :=
    ⟨_, _, (List.dropLast_concat_getLast hne).symm⟩
  simp only [List.length_append, List.length_singleton] at hn
  obtain ⟨b1, h1, h2⟩ := h.pushAll .release init (by omega)
  obtain ⟨b2, h3, h4⟩ := h2.push_256 last (by simp; omega)
  exact ⟨b2, pushAll_snoc h1 h3, by rw [← List.append_assoc]; exact h4⟩

theorem BInv.views_of {b : Builder} {c kt args n} (h : BInv { b with argumentCount := n } c kt args) :
    Views b.intoRequest c kt args := h.views

theorem Api.start_256 (env : Env) (a : Api) (hm : env.mode = .release) (hr : a.refusal = none)
    (hn : (a.call env).args.length = 256) (hs : a.entries ≠ 255) : Sends env a := by
  cases a with
  | append k v =>
    simp only [Api.call, List.length_cons] at hn
    simp only [Api.refusal] at hr
    by_cases hk : k = []
    · simp [hk] at hr
    simp only [if_neg hk] at hr
    obtain ⟨b, h1, h2⟩ := one_arg env.mode .append (some v.kind) k rfl hk
    cases v with
    | list l =>
      simp only [Value.kind, appendable, Bool.not_true, Bool.false_eq_true, if_false] at hr
      have hh : hollow (.list l) = false := by
        cases h : hollow (.list l) with
        | false => rfl
        | true => rw [h] at hr; simp at hr
      simp only [spelled] at hn
      obtain ⟨b', h3, h4⟩ := h2.pushAll_256 l (by simp only [List.length_singleton]; omega)
        (by rintro rfl; simp at hn)
      rw [← bytesAll_pushAll (not_hollow_list hh)] at h3
      refine ⟨b', fun v => Client.ret (.value v), h4.views_of, ?_, fun v _ => by cases v <;> rfl⟩
      rw [← hm] at h3
      simp only [Api.start, Client.append, wrap_built, built_ok h1, built_ok h3, wrap_send]
    | bytes x => simp only [spelled, List.length_singleton] at hn; omega
    | string x => simp only [spelled, List.length_singleton] at hn; omega
    | _ => simp [Value.kind, appendable] at hr
  | set k v =>
    simp only [Api.call, List.length_cons, spelled_length] at hn
    cases v <;> simp only [argsOf, Api.entries] at hn hs <;> omega
  | incrementBy k v =>
    simp only [Api.refusal] at hr
    by_cases hk : k = []
    · simp [hk] at hr
    simp only [if_neg hk] at hr
    cases v <;> first
      | (simp only [Api.call, spelled, List.length_cons, List.length_singleton, List.length_nil] at hn; omega)
      | simp [Value.kind, numeric] at hr
  | decrementBy k v =>
    simp only [Api.refusal] at hr
    by_cases hk : k = []
    · simp [hk] at hr
    simp only [if_neg hk] at hr
    cases v <;> first
      | (simp only [Api.call, spelled, List.length_cons, List.length_singleton, List.length_nil] at hn; omega)
      | simp [Value.kind, numeric] at hr
  | «exists» ks =>
    simp only [Api.call] at hn
    simp only [Api.refusal] at hr
    have hk : [] ∉ ks := by intro h; simp [h] at hr
    obtain ⟨b', h3, h4⟩ := (BInv.new .exists none rfl).pushAll_256 ks (by simp only [List.length_nil]; omega)
      (by rintro rfl; simp at hn)
    rw [← bytesAll_pushAll hk, ← hm] at h3
    refine ⟨b', fun v => wrap Got.bool (Client.asBool v), h4.views_of, ?_, fun v _ => by cases v <;> rfl⟩
    simp only [Api.start, Client.exists, Builder.new_eq, wrap_built, built_ok h3, wrap_bind]
  | is t ks =>
    simp only [Api.call] at hn
    simp only [Api.refusal] at hr
    have hk : [] ∉ ks := by intro h; simp [h] at hr
    obtain ⟨b', h3, h4⟩ := (BInv.new .is (some t) rfl).pushAll_256 ks (by simp only [List.length_nil]; omega)
      (by rintro rfl; simp at hn)
    rw [← bytesAll_pushAll hk, ← hm] at h3
    refine ⟨b', fun v => wrap Got.bool (Client.asBool v), h4.views_of, ?_, fun v _ => by cases v <;> rfl⟩
    simp only [Api.start, Client.is, wrap_built, built_ok h3, wrap_bind]
  | _ => simp only [Api.call, List.length_cons, List.length_nil] at hn; omega

theorem Api.given_of_sends {env : Env} {a : Api} (h : Sends env a) (db : Db) (hc : Roomy 1 db.ctrs)
    (hf : Carriable env.mode (perform env (a.call env) db).1) :
    (a.start env).run db = (a.given env (perform env (a.call env) db).1, (perform env (a.call env) db).2) := by
  obtain ⟨b, f, hv, hs, hr⟩ := h
  have hsend := run_send (c := a.call env) hv db hc hf
  have hexp := Api.keyType_expected env a db
  rw [hs]
  generalize (perform env (a.call env) db).1 = x at *
  cases x with
  | value v =>
    rw [run_bind_ok _ _ _ hsend, hr _ (hexp v rfl)]
    simp only [reading, Api.given]
    cases a.understood (orderedValue env v) <;> rfl
  | error e => rw [run_bind_error _ _ _ hsend]; rfl
  | crash => rw [run_bind_panic _ _ _ hsend]; rfl

/-- C97. A call of exactly 256 arguments in a release build is carried out like any other (C65), although the
argument count of its request is a byte and reads 0; only `set`, whose list or set then has 255 items,
refuses. -/
theorem C97_at_256 (env : Env) (a : Api) (db : Db) (hm : env.mode = .release) (hr : a.refusal = none)
    (hn : (a.call env).args.length = 256) (hc : Roomy 1 db.ctrs)
    (hf : Carriable env.mode (perform env (a.call env) db).1) :
    (a.start env).run db =
      if a.entries = 255 then (.ok (.error (.buildingRequest .tooManyArguments)), db)
      else (a.given env (perform env (a.call env) db).1, (perform env (a.call env) db).2) := by
  split
  · rename_i hs
    cases a with
    | set k v =>
      simp only [Api.refusal] at hr
      by_cases hk : k = []
      · simp [hk] at hr
      obtain ⟨b, h1, h2⟩ := one_arg env.mode .set (some v.kind) k rfl hk
      have h4 : b.wouldOverfill (255 % 256) = true := by
        simp [Builder.wouldOverfill, h2.count]
      simp only [Api.start, Client.set, wrap_built, built_ok h1]
      cases v <;> simp only [Api.entries] at hs <;> first
        | omega
        | (simp only [Builder.value, hs, h4, if_true]; rfl)
    | _ => simp [Api.entries] at hs
  · rename_i hs
    exact Api.given_of_sends (Api.start_256 env a hm hr hn hs) db hc hf

/-! ## Concrete cases -/

/-- A list of 300 items given to `append`: a panic in either build. -/
example (m : Mode) : ((Api.append [107] (.list (List.replicate 300 [1]))).start (sampleEnv m)).run (sampleDb []) =
    (.panic, (sampleDb [])) := by
  have h := C97_panics (sampleEnv m) (.append [107] (.list (List.replicate 300 [1]))) (sampleDb [])
    (by decide +kernel) (by cases m <;> decide +kernel)
  rw [if_neg (by simp only [Api.entries]; decide)] at h
  exact h

/-- A list of 511 items given to `set` is reported. -/
example : ((Api.set [107] (.list (List.replicate 511 [1]))).start (sampleEnv .debug)).run (sampleDb []) =
    (.ok (.error (.buildingRequest .tooManyArguments)), (sampleDb [])) := by
  have h := C97_panics (sampleEnv .debug) (.set [107] (.list (List.replicate 511 [1]))) (sampleDb [])
    (by decide +kernel) (by decide +kernel)
  rw [if_pos (by decide +kernel)] at h
  exact h

/-- Nothing is sent for it. -/
example (c : Client.Server.Conn) :
    ((Api.append [107] (.list (List.replicate 300 [1]))).serve (sampleEnv .release) 1 c).1 = [] := by
  rcases C97_nothing_sent (sampleEnv .release) 1 c (.append [107] (.list (List.replicate 300 [1])))
    (by decide +kernel) with h | ⟨e, h⟩ <;> rw [h]

/-- Asking for 256 missing keys in a release build. -/
example : ((Api.exists (List.replicate 256 [107])).start (sampleEnv .release)).run (sampleDb []) =
    (.ok (.ok (.bool false)), (perform (sampleEnv .release) ⟨.exists, none, List.replicate 256 [107]⟩ (sampleDb [])).2) := by
  have hp : (perform (sampleEnv .release) ((Api.exists (List.replicate 256 [107])).call (sampleEnv .release))
      (sampleDb [])).1 = .value (.boolean false) := by decide +kernel
  have h := C97_at_256 (sampleEnv .release) (.exists (List.replicate 256 [107])) (sampleDb []) rfl
    (by decide +kernel) (by decide +kernel) (by intro m; simp [sampleDb]) (by rw [hp]; trivial)
  rw [if_neg (by simp [Api.entries]), hp] at h
  exact h

/-! ## A further concrete case -/

/-- Five hundred keys asked about at once. -/
example (db : Db) : ((Api.exists (List.replicate 500 [1])).start (sampleEnv .release)).run db = (.panic, db) ∨
    ∃ e, ((Api.exists (List.replicate 500 [1])).start (sampleEnv .release)).run db = (.ok (.error e), db) :=
  C97_too_many _ _ _ (by decide +kernel)

end Hop
