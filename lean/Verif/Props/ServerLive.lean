import Verif.Spec.ServerLive
import Verif.Props.Server
import Verif.Props.Exclusive

/-! # C154, C155: connections that stay open -/

namespace Hop

open Spec Prog
open Server (Net NetEvent Live Task)

/-! ## Lines -/

/-- Empty, or ending with a newline. -/
def EndsLine (a : Bytes) : Prop := a = [] ∨ a.getLast? = some 10

theorem lines_ne_nil {a : Bytes} (h : a ≠ []) : Server.lines a ≠ [] := by
  cases a with
  | nil => exact absurd rfl h
  | cons b rest =>
    rw [Server.lines]
    split
    · simp
    · split <;> simp

theorem lines_append {a : Bytes} (h : EndsLine a) (b : Bytes) :
    Server.lines (a ++ b) = Server.lines a ++ Server.lines b := by
  induction a with
  | nil => simp [Server.lines]
  | cons x rest ih =>
    rw [List.cons_append, Server.lines, Server.lines]
    by_cases hr : rest = []
    · subst hr
      have hx : x = 10 := by
        rcases h with h | h
        · cases h
        · simpa using h
      simp [hx, Server.lines]
    · have hr' : EndsLine rest := by
        rcases h with h | h
        · cases h
        · rw [List.getLast?_cons_of_ne_nil hr] at h
          exact .inr h
      rw [ih hr']
      split
      · simp
      · cases hl : Server.lines rest with
        | nil => exact absurd hl (lines_ne_nil hr)
        | cons l ls => simp

theorem lines_single {a : Bytes} (h : (10 : UInt8) ∉ a) (hn : a ≠ []) : Server.lines a = [a] := by
  induction a with
  | nil => exact absurd rfl hn
  | cons x rest ih =>
    have hx : x ≠ 10 := fun e => h (by simp [e])
    rw [Server.lines, if_neg hx]
    by_cases hr : rest = []
    · subst hr; rfl
    · rw [ih (fun e => h (List.mem_cons_of_mem _ e)) hr]

theorem lines_line {a : Bytes} (h : (10 : UInt8) ∉ a) : Server.lines (a ++ [10]) = [a ++ [10]] := by
  induction a with
  | nil => rfl
  | cons x rest ih =>
    have hx : x ≠ 10 := fun e => h (by simp [e])
    rw [List.cons_append, Server.lines, if_neg hx, ih (fun e => h (List.mem_cons_of_mem _ e))]

theorem EndsLine.append {a b : Bytes} (ha : EndsLine a) (hb : EndsLine b) : EndsLine (a ++ b) := by
  rcases hb with rfl | hb
  · simpa using ha
  · exact .inr (by rw [List.getLast?_append, hb]; rfl)

theorem endsLine_line (a : Bytes) : EndsLine (a ++ [10]) := .inr (by simp)

theorem exists_whole (bytes : Bytes) : ∃ w, Whole bytes w := by
  induction bytes with
  | nil => exact ⟨[], [], rfl, by simp, .inl rfl⟩
  | cons b rest ih =>
    obtain ⟨w, r, rfl, h1, h2⟩ := ih
    by_cases hw : w = []
    · subst hw
      by_cases hb : b = 10
      · exact ⟨[b], r, rfl, h1, .inr (by simp [hb])⟩
      · exact ⟨[], b :: r, rfl, by simp [h1, Ne.symm hb], .inl rfl⟩
    · refine ⟨b :: w, r, rfl, h1, .inr ?_⟩
      rw [List.getLast?_cons_of_ne_nil hw]
      exact h2.resolve_left hw

/-! ## What has been heard so far -/

/-- What has been heard in the pieces so far, and what is still unanswered. -/
inductive Upto : List Bytes → List Heard → Bytes → Prop
  | start : Upto [] [] []
  | wait {ps hs sofar piece} : Upto ps hs sofar → (∀ h, ¬ Understood (sofar ++ piece) h) → ¬ Overfull (sofar ++ piece) →
      Upto (ps ++ [piece]) hs (sofar ++ piece)
  | hear {ps hs sofar piece h} : Upto ps hs sofar → Understood (sofar ++ piece) h → Upto (ps ++ [piece]) (hs ++ [h]) []

theorem Upto.hears {ps : List Bytes} {hs : List Heard} {sofar : Bytes} (h : Upto ps hs sofar) :
    ∀ {rest hs' e}, Hears sofar rest hs' e → Hears [] (ps ++ rest) (hs ++ hs') e := by
  induction h with
  | start => exact fun h => h
  | wait _ h1 h2 ih => intro rest hs' e h; rw [List.append_assoc]; exact ih (.wait h1 h2 h)
  | hear _ h1 ih =>
    intro rest hs' e h
    rw [List.append_assoc, List.append_assoc]
    exact ih (.hear h1 h)

theorem Upto.closed {ps : List Bytes} {hs : List Heard} {sofar : Bytes} (h : Upto ps hs sofar) :
    Hears [] ps hs .closed := by
  simpa using h.hears .close

theorem liveAll2_snoc {α β : Type} {R : α → β → Prop} {as : List α} {bs : List β} {a : α} {b : β} (h : All2 R as bs) (hab : R a b) :
    All2 R (as ++ [a]) (bs ++ [b]) := by
  induction h with
  | nil => exact .cons hab .nil
  | cons h1 _ ih => exact .cons h1 ih

theorem wire_snoc (env : Env) (rs : List Response) (r : Response) :
    wire env (rs ++ [r]) = wire env rs ++ frame (ordered env r) := by
  simp [wire]

/-! ## Requests as the parser delivers them are short -/

/-- The program ends after at most `n` operations. -/
def Short {α} : Prog α → Nat → Prop
  | .done _, _ => True
  | .onKey _ _ next, n => ∃ k, n = k + 1 ∧ ∀ o, Short (next o) k
  | .onCtr _ _ next, n => ∃ k, n = k + 1 ∧ ∀ o, Short (next o) k

theorem Short.mono {α} {p : Prog α} {n k : Nat} (h : Short p n) (hk : n ≤ k) : Short p k := by
  induction p generalizing n k with
  | done r => trivial
  | onKey m upd next ih =>
    obtain ⟨j, rfl, h⟩ := h
    exact ⟨k - 1, by omega, fun o => ih o (h o) (by omega)⟩
  | onCtr m upd next ih =>
    obtain ⟨j, rfl, h⟩ := h
    exact ⟨k - 1, by omega, fun o => ih o (h o) (by omega)⟩

theorem Short.andThen {α β} {p : Prog α} {f : Outcome DispatchError α → Prog β} {n k : Nat} (h : Short p n)
    (hf : ∀ r, Short (f r) k) : Short (p.andThen f) (n + k) := by
  induction p generalizing n with
  | done r => exact (hf r).mono (by omega)
  | onKey m upd next ih =>
    obtain ⟨j, rfl, h⟩ := h
    exact ⟨j + k, by omega, fun o => ih o (h o)⟩
  | onCtr m upd next ih =>
    obtain ⟨j, rfl, h⟩ := h
    exact ⟨j + k, by omega, fun o => ih o (h o)⟩

theorem short_dispatch (env : Env) (buf : Bytes) (c : CommandId) : Short (dispatch env (bare buf c) []) 4 := by
  have count : ∀ o : Outcome DispatchError Bytes, Short (countOutcome env o) 1 := by
    intro o
    cases o with
    | ok a => exact ⟨0, rfl, fun o => by dsimp only; split <;> trivial⟩
    | err a => exact ⟨0, rfl, fun o => by dsimp only; split <;> trivial⟩
    | panic => trivial
    | stuck => trivial
  have plain : ∀ r, command env (bare buf c) [] = .done r → Short (dispatch env (bare buf c) []) 4 := by
    intro r h
    unfold dispatch
    rw [h]
    exact (count r).mono (by omega)
  cases c with
  | stats =>
    refine Short.andThen (n := 3) (k := 1) ?_ count
    simp only [command, bare, dispatchStats, Option.isSome_none, Bool.false_eq_true, if_false, statsCounters,
      statsLoop_cons]
    exact ⟨2, rfl, fun _ => ⟨1, rfl, fun _ => ⟨0, rfl, fun _ => trivial⟩⟩⟩
  | echo => exact plain _ rfl
  | «exists» => exact plain _ rfl
  | is => exact plain _ rfl
  | append => exact plain _ rfl
  | decrement => exact plain _ rfl
  | decrementBy => exact plain _ rfl
  | delete => exact plain _ rfl
  | get => exact plain _ rfl
  | increment => exact plain _ rfl
  | incrementBy => exact plain _ rfl
  | keys => exact plain _ rfl
  | length => exact plain _ rfl
  | rename => exact plain _ rfl
  | set => exact plain _ rfl
  | type => exact plain _ rfl

/-- No operation raises a counter by more than one. -/
def Slow {α} : Prog α → Prop
  | .done _ => True
  | .onKey _ _ next => ∀ o, Slow (next o)
  | .onCtr _ upd next => ∀ o, (upd o).getD 0 ≤ o.getD 0 + 1 ∧ Slow (next o)

theorem Incs.slow {α} {p : Prog α} {n : Nat} (h : Incs p n) : Slow p := by
  induction p generalizing n with
  | done r => trivial
  | onKey m upd next ih => exact fun o => ih o (h o)
  | onCtr m upd next ih =>
    rcases h with h | ⟨k, rfl, h⟩
    · exact fun o => ⟨by rw [(h o).1]; omega, ih o (h o).2⟩
    · exact fun o => ⟨(h o).1, ih o (h o).2⟩

theorem andThen_done' {α} (p : Prog α) : p.andThen .done = p := by
  induction p with
  | done r => rfl
  | onKey k upd next ih => simp only [Prog.andThen]; congr 1; funext o; exact ih o
  | onCtr k upd next ih => simp only [Prog.andThen]; congr 1; funext o; exact ih o

theorem slow_dispatch (env : Env) (r : Request) (resp : Bytes) : Slow (dispatch env r resp) := by
  have h : Incs ((dispatch env r resp).andThen .done) 1 := Incs.dispatch (n := 0) env r resp fun _ => trivial
  rw [andThen_done'] at h
  exact h.slow

/-! ## What the tasks are like -/

/-- A task works on a request as the parser delivers it, or is reading. -/
def Tame (c : Live) : Prop :=
  match c.task with
  | .reading ctx input _ => ∃ sofar cur, input = sofar ++ cur ∧ Waiting sofar ctx
  | .running p ctx => ctx = ReqParser.Ctx.new ∧ Slow p ∧ Writes (fun _ => False) p ∧ Short p 4
  | .over _ => True
  | .stuck => True

theorem tame_look (env : Env) (c : Live) {sofar piece : Bytes} {ctx : ReqParser.Ctx} (hw : Waiting sofar ctx) :
    Tame (c.look env ctx (sofar ++ piece)) := by
  have hu := feed_understood hw piece
  unfold Live.look
  cases hf : ReqParser.feed ctx (sofar ++ piece) with
  | mk o c' =>
    rw [hf] at hu
    cases o with
    | request r =>
      obtain ⟨rfl, hr, -⟩ := hu
      have ha : ∀ i, r.arg i = none := fun i => by rw [hr]; rfl
      refine ⟨rfl, slow_dispatch env _ _, writes_dispatch (fun _ k hk => by rw [ha] at hk; cases hk)
        (fun _ k hk => by rw [ha] at hk; cases hk), ?_⟩
      rw [hr]
      exact short_dispatch env _ _
    | more => exact ⟨sofar ++ piece, [], by simp, hu.1⟩
    | error e => obtain ⟨rfl, -⟩ := hu; exact ⟨[], [], rfl, .start⟩
    | panic => trivial
    | stuck => trivial

/-- A turn: the task stays tame, no key changes, counters rise by one at most. -/
theorem tame_step (env : Env) {c : Live} (h : Tame c) (db : Db) :
    Tame (c.step env db).1 ∧ (c.step env db).2.keys = db.keys ∧
      ∀ m, ((c.step env db).2.ctrs m).getD 0 ≤ (db.ctrs m).getD 0 + 1 := by
  obtain ⟨pending, closed, sent, task⟩ := c
  cases task with
  | reading ctx input size =>
    obtain ⟨sofar, cur, rfl, hw⟩ := h
    cases pending with
    | cons b rest =>
      refine ⟨?_, rfl, fun m => Nat.le_succ _⟩
      simp only [Live.step]
      split
      · rw [List.append_assoc]; exact tame_look env _ hw
      · exact ⟨sofar, cur ++ [b], by simp, hw⟩
    | nil =>
      refine ⟨?_, rfl, fun m => Nat.le_succ _⟩
      simp only [Live.step]
      split
      · split
        · trivial
        · exact tame_look env _ hw
      · exact ⟨sofar, cur, rfl, hw⟩
  | running p ctx =>
    obtain ⟨rfl, h1, h2, h3⟩ := h
    cases p with
    | done r =>
      cases r with
      | ok resp => exact ⟨⟨[], [], rfl, .start⟩, rfl, fun m => Nat.le_succ _⟩
      | err e => exact ⟨⟨[], [], rfl, .start⟩, rfl, fun m => Nat.le_succ _⟩
      | panic => exact ⟨trivial, rfl, fun m => Nat.le_succ _⟩
      | stuck => exact ⟨trivial, rfl, fun m => Nat.le_succ _⟩
    | onKey k upd next =>
      obtain ⟨j, hj, h3⟩ := h3
      have hw := Writes.step h2 db
      exact ⟨⟨rfl, h1 _, hw.1, (h3 _).mono (by omega)⟩, funext fun k' => hw.2 k' (by simp), fun m => Nat.le_succ _⟩
    | onCtr m upd next =>
      obtain ⟨j, hj, h3⟩ := h3
      refine ⟨⟨rfl, (h1 _).2, h2 _, (h3 _).mono (by omega)⟩, rfl, fun m' => ?_⟩
      simp only [Live.step, Prog.step, Db.setCtr]
      split
      · rename_i e; subst e; exact (h1 _).1
      · exact Nat.le_succ _
  | over e => exact ⟨trivial, rfl, fun m => Nat.le_succ _⟩
  | stuck => exact ⟨trivial, rfl, fun m => Nat.le_succ _⟩

theorem net_exec_snoc (env : Env) (n : Net) (s : List NetEvent) (e : NetEvent) :
    n.exec env (s ++ [e]) = (n.exec env s).step env e := by
  simp [Net.exec, List.foldl_append]

theorem net_exec_append (env : Env) (n : Net) (s t : List NetEvent) :
    n.exec env (s ++ t) = (n.exec env s).exec env t := by
  simp [Net.exec, List.foldl_append]

theorem tame_exec (env : Env) (k : Nat) (db : Db) (s : List NetEvent) :
    let n := (Net.start k db).exec env s
    (∀ c ∈ n.conns, Tame c) ∧ n.db.keys = db.keys ∧ ∀ m, (n.db.ctrs m).getD 0 ≤ (db.ctrs m).getD 0 + s.length := by
  induction s using snoc_ind with
  | h0 =>
    refine ⟨fun c hc => ?_, rfl, fun m => Nat.le_refl _⟩
    obtain ⟨-, rfl⟩ := List.mem_replicate.mp (show c ∈ List.replicate k _ from hc)
    exact ⟨[], [], rfl, .start⟩
  | h1 s e ih =>
    dsimp only at ih ⊢
    rw [net_exec_snoc]
    obtain ⟨h1, h2, h3⟩ := ih
    generalize (Net.start k db).exec env s = n at h1 h2 h3
    have stay : ∀ m, (n.db.ctrs m).getD 0 ≤ (db.ctrs m).getD 0 + (s ++ [e]).length := fun m => by
      have := h3 m
      simp; omega
    have key : ∀ {i : Nat} {a : Live}, Tame a → ∀ c ∈ n.conns.set i a, Tame c := fun ha c hc => by
      rcases List.mem_or_eq_of_mem_set hc with h | rfl
      · exact h1 c h
      · exact ha
    cases e with
    | arrive i bytes =>
      simp only [Net.step]
      split
      · exact ⟨h1, h2, stay⟩
      · rename_i c hc
        split
        · exact ⟨h1, h2, stay⟩
        · exact ⟨key (h1 c (List.mem_of_getElem? hc)), h2, stay⟩
    | hangup i =>
      simp only [Net.step]
      split
      · exact ⟨h1, h2, stay⟩
      · rename_i c hc
        exact ⟨key (h1 c (List.mem_of_getElem? hc)), h2, stay⟩
    | turn i =>
      simp only [Net.step]
      split
      · exact ⟨h1, h2, stay⟩
      · rename_i c hc
        obtain ⟨h4, h5, h6⟩ := tame_step env (h1 c (List.mem_of_getElem? hc)) n.db
        refine ⟨key h4, h5.trans h2, fun m => ?_⟩
        have := h3 m
        have := h6 m
        simp; omega

theorem net_length (env : Env) (k : Nat) (db : Db) (s : List NetEvent) :
    ((Net.start k db).exec env s).conns.length = k := by
  induction s using snoc_ind with
  | h0 => simp [Net.exec, Net.start]
  | h1 s e ih =>
    rw [net_exec_snoc]
    generalize (Net.start k db).exec env s = n at ih
    cases e <;> simp only [Net.step] <;> split <;> try exact ih
    all_goals first | (split <;> simp [ih]) | simp [ih]

/-! ## What has arrived -/

/-- What an event brings to connection `i`. -/
def brings (i : Nat) : NetEvent → Bytes
  | .arrive j bytes => if j = i then bytes else []
  | _ => []

theorem arrived_snoc (i : Nat) (s : List NetEvent) (e : NetEvent) :
    arrived i (s ++ [e]) = arrived i s ++ (if .hangup i ∈ s then [] else brings i e) := by
  unfold arrived
  induction s with
  | nil =>
    simp only [List.nil_append, List.takeWhile_nil, List.flatMap_nil, List.not_mem_nil, if_false]
    cases e with
    | arrive j b => simp [brings]
    | hangup j => simp [brings, List.takeWhile_cons]
    | turn j => simp [brings]
  | cons a s ih =>
    rw [List.cons_append, List.takeWhile_cons, List.takeWhile_cons]
    by_cases ha : a = .hangup i
    · simp [ha]
    · have : (NetEvent.hangup i ∈ a :: s) ↔ NetEvent.hangup i ∈ s := by simp [Ne.symm ha]
      simp only [this]
      simp only [ne_eq, ha, not_false_eq_true, decide_true, if_true, List.flatMap_cons]
      rw [ih, List.append_assoc]

theorem arrived_append (i : Nat) (s u : List NetEvent) : ∃ t, arrived i (s ++ u) = arrived i s ++ t := by
  induction u using snoc_ind with
  | h0 => exact ⟨[], by simp⟩
  | h1 u e ih =>
    obtain ⟨t, ih⟩ := ih
    rw [← List.append_assoc, arrived_snoc, ih, List.append_assoc]
    exact ⟨_, rfl⟩

/-! ## What has been answered -/

/-- The command at work has succeeded already. -/
def oks : Task → Nat
  | .running p _ => if succeeded p then 1 else 0
  | _ => 0

/-- The command at work has failed already. -/
def errs : Task → Nat
  | .running p _ => if errored p then 1 else 0
  | _ => 0

/-- What is known of a connection at which `got` has arrived and that has raised the counters by `s` and `f`. -/
def LiveTold (env : Env) (ok : Metric → Option Nat → Prop) (got : Bytes) (closed : Prop) (s f : Nat) (c : Live) : Prop :=
  (c.closed = true ↔ closed) ∧
  ∃ ps hs rs sofar, All2 (Responds ok) hs rs ∧ c.sent = wire env rs ∧ Upto ps hs sofar ∧
    Server.lines ps.flatten = ps ∧ (s = rs.countP isValue + oks c.task ∧ f = rs.countP isFailure + errs c.task) ∧
    match c.task with
    | .reading ctx input size => ∃ cur, got = ps.flatten ++ cur ++ c.pending ∧ (10 : UInt8) ∉ cur ∧
        input = sofar ++ cur ∧ Waiting sofar ctx ∧ size = cur.length ∧
        (EndsLine ps.flatten ∨ c.closed = true ∧ c.pending = [] ∧ cur = [])
    | .running p ctx => ∃ piece cmd, got = ps.flatten ++ piece ++ c.pending ∧
        Server.lines (ps.flatten ++ piece) = ps ++ [piece] ∧
        (EndsLine (ps.flatten ++ piece) ∨ c.closed = true ∧ c.pending = []) ∧
        Understood (sofar ++ piece) (.command cmd) ∧ ctx = ReqParser.Ctx.new ∧
        Leaves ok (fun o => ∃ r, Answers ok cmd r ∧
          (((∃ v, r = .value v) ∧ o = .ok (frame (ordered env r))) ∨ ∃ e, r = .dispatchError e ∧ o = .err e)) p ∧
        (Owes p ∨ succeeded p = true ∨ errored p = true)
    | .over .panicked => ∃ piece, got = ps.flatten ++ piece ++ c.pending ∧
        Server.lines (ps.flatten ++ piece) = ps ++ [piece] ∧
        (EndsLine (ps.flatten ++ piece) ∨ c.closed = true ∧ c.pending = []) ∧ Overfull (sofar ++ piece)
    | .over .closed => got = ps.flatten ∧ c.closed = true
    | .stuck => False

theorem Owes.open {p : Prog Bytes} (h : Owes p) : succeeded p = false ∧ errored p = false := by
  cases p with
  | done r => rcases h with rfl | rfl <;> exact ⟨rfl, rfl⟩
  | onKey k upd next => exact ⟨rfl, rfl⟩
  | onCtr m upd next => exact ⟨rfl, rfl⟩

theorem told_look {env : Env} {ok : Metric → Option Nat → Prop} (hok : ∀ m o, ok m o → Room m o) {got : Bytes} {closed : Prop}
    {s f : Nat} {c : Live} (hc : c.closed = true ↔ closed) {ps : List Bytes} {hs : List Heard} {rs : List Response} {sofar piece : Bytes}
    {ctx : ReqParser.Ctx} (h1 : All2 (Responds ok) hs rs) (h2 : c.sent = wire env rs) (h3 : Upto ps hs sofar)
    (h4 : Server.lines ps.flatten = ps) (hg : got = ps.flatten ++ piece ++ c.pending)
    (hl : Server.lines (ps.flatten ++ piece) = ps ++ [piece])
    (he : EndsLine (ps.flatten ++ piece) ∨ c.closed = true ∧ c.pending = []) (hw : Waiting sofar ctx)
    (hn : s = rs.countP isValue ∧ f = rs.countP isFailure) :
    LiveTold env ok got closed s f (c.look env ctx (sofar ++ piece)) := by
  have hu := feed_understood hw piece
  have hfl : (ps ++ [piece]).flatten = ps.flatten ++ piece := by simp
  unfold Live.look
  cases hf : ReqParser.feed ctx (sofar ++ piece) with
  | mk o c' =>
    rw [hf] at hu
    cases o with
    | request r =>
      obtain ⟨rfl, hr, ha⟩ := hu
      have ho := owes_dispatch env r []
      refine ⟨hc, ps, hs, rs, sofar, h1, h2, h3, h4, ?_, piece, r.commandId, hg, hl, he, ha, rfl, ?_, .inl ho⟩
      · simp [oks, errs, ho.open.1, ho.open.2, hn]
      rw [hr]
      exact leaves_dispatch env _ _ ok hok
    | more =>
      obtain ⟨hw', hn', ho⟩ := hu
      exact ⟨hc, ps ++ [piece], hs, rs, sofar ++ piece, h1, h2, .wait h3 hn' ho, by rw [hfl, hl], hn, [], by simp [hg], by simp,
        by simp, hw', rfl, by rw [hfl]; simpa using he⟩
    | error e =>
      obtain ⟨rfl, hu⟩ := hu
      refine ⟨hc, ps ++ [piece], hs ++ [.garbage e], rs ++ [.parseError e], [], liveAll2_snoc h1 (show Responds ok (.garbage e) (.parseError e) from rfl), ?_, .hear (h := .garbage e) h3 hu, by rw [hfl, hl],
        by simpa [oks, errs, isValue, isFailure] using hn, [], by simp [hg], by simp, by simp, .start, rfl, by rw [hfl]; simpa using he⟩
      simp only [h2, wire_snoc, frame_parseError env]
    | panic => exact ⟨hc, ps, hs, rs, sofar, h1, h2, h3, h4, hn, piece, hg, hl, he, hu⟩
    | stuck => exact hu.elim

/-- How counters have been raised: those of commands from `s` to `s'` and `f` to `f'`, the others not. -/
def Raised (db db' : Db) (s f s' f' : Nat) : Prop :=
  (db'.ctrs .commandsSuccessful).getD 0 + s = (db.ctrs .commandsSuccessful).getD 0 + s' ∧
  (db'.ctrs .commandsErrored).getD 0 + f = (db.ctrs .commandsErrored).getD 0 + f' ∧
  ∀ m, m ≠ .commandsSuccessful → m ≠ .commandsErrored → db'.ctrs m = db.ctrs m

theorem Raised.none (db : Db) (s f : Nat) : Raised db db s f s f := ⟨rfl, rfl, fun _ _ _ => rfl⟩

theorem told_step {env : Env} {ok : Metric → Option Nat → Prop} (hok : ∀ m o, ok m o → Room m o) {got : Bytes} {closed : Prop}
    {s f : Nat} {c : Live} (h : LiveTold env ok got closed s f c) {db : Db} (hdb : ∀ m, ok m (db.ctrs m)) :
    ∃ s' f', LiveTold env ok got closed s' f' (c.step env db).1 ∧ Raised db (c.step env db).2 s f s' f' := by
  obtain ⟨pending, cl, sent, task⟩ := c
  obtain ⟨hc, ps, hs, rs, sofar, h1, h2, h3, h4, hcnt, h5⟩ := h
  have calm : ∀ c', LiveTold env ok got closed s f c' →
      ∃ s' f', LiveTold env ok got closed s' f' c' ∧ Raised db db s f s' f' := fun c' h => ⟨s, f, h, .none db s f⟩
  cases task with
  | reading ctx input size =>
    obtain ⟨cur, hg, hn, rfl, hw, rfl, he⟩ := h5
    cases pending with
    | cons b rest =>
      have he' : EndsLine ps.flatten := he.resolve_right fun h => by cases h.2.1
      simp only [Live.step]
      refine calm _ ?_
      split
      · rename_i hb
        subst hb
        rw [List.append_assoc]
        refine told_look (c := ⟨rest, cl, sent, .reading ctx (sofar ++ cur) cur.length⟩) hok hc h1 h2 h3 h4 (by simp [hg]) ?_
          (.inl (he'.append (endsLine_line cur))) hw hcnt
        rw [lines_append he', h4, lines_line hn]
      · rename_i hb
        exact ⟨hc, ps, hs, rs, sofar, h1, h2, h3, h4, hcnt, cur ++ [b], by simp [hg], by simp [hn, Ne.symm hb], by simp, hw, by simp,
          .inl he'⟩
    | nil =>
      simp only [Live.step]
      refine calm _ ?_
      split
      · rename_i hcl
        split
        · rename_i hz
          obtain rfl := List.eq_nil_of_length_eq_zero hz
          exact ⟨hc, ps, hs, rs, sofar, h1, h2, h3, h4, hcnt, by simpa using hg, hcl⟩
        · rename_i hz
          have hne : cur ≠ [] := fun e => hz (by simp [e])
          have he : EndsLine ps.flatten := he.resolve_right fun h => hne h.2.2
          refine told_look hok hc h1 h2 h3 h4 hg ?_ (.inr ⟨hcl, rfl⟩) hw hcnt
          rw [lines_append he, h4, lines_single hn hne]
      · exact ⟨hc, ps, hs, rs, sofar, h1, h2, h3, h4, hcnt, cur, hg, hn, rfl, hw, rfl, he⟩
  | running p ctx =>
    obtain ⟨piece, cmd, hg, hl, he, hu, rfl, hp, hq⟩ := h5
    have hfl : (ps ++ [piece]).flatten = ps.flatten ++ piece := by simp
    have next : ∀ a out, Answers ok cmd a → out = frame (ordered env a) →
        s = (rs ++ [a]).countP isValue → f = (rs ++ [a]).countP isFailure →
        LiveTold env ok got closed s f ⟨pending, cl, sent ++ out, .reading ReqParser.Ctx.new [] 0⟩ := by
      rintro a _ ha rfl hs1 hf1
      refine ⟨hc, ps ++ [piece], hs ++ [.command cmd], rs ++ [a], [], liveAll2_snoc h1 (show Responds ok (.command cmd) a from ha), ?_,
        .hear h3 hu, by rw [hfl, hl], ⟨hs1, hf1⟩, [], by simp [hg], by simp, by simp, .start, rfl, by rw [hfl]; simpa using he⟩
      simp only at h2
      simp only [h2, wire_snoc]
    have keep : ∀ q db', Leaves ok _ q → (Owes q ∨ succeeded q = true ∨ errored q = true) →
        Raised db db' s f (rs.countP isValue + oks (.running q ReqParser.Ctx.new))
          (rs.countP isFailure + errs (.running q ReqParser.Ctx.new)) →
        ∃ s' f', LiveTold env ok got closed s' f' ⟨pending, cl, sent, .running q ReqParser.Ctx.new⟩ ∧
          Raised db db' s f s' f' := fun q db' h6 h7 h8 =>
      ⟨_, _, ⟨hc, ps, hs, rs, sofar, h1, h2, h3, h4, ⟨rfl, rfl⟩, piece, cmd, hg, hl, he, hu, rfl, h6, h7⟩, h8⟩
    obtain ⟨rfl, rfl⟩ := hcnt
    cases p with
    | done o =>
      obtain ⟨a, ha, ⟨⟨v, rfl⟩, rfl⟩ | ⟨e, rfl, rfl⟩⟩ := hp
      · exact calm _ (next _ _ ha rfl (by simp [isValue, oks, succeeded]) (by simp [isFailure, errs, errored]))
      · exact calm _ (next _ _ ha (frame_dispatchError env e) (by simp [isValue, oks, succeeded])
          (by simp [isFailure, errs, errored]))
    | onKey k upd nx =>
      have hq' : Owes (.onKey k upd nx) := by simpa [succeeded, errored] using hq
      obtain ⟨e1, e2⟩ := (hq' (db.keys k)).open
      refine keep _ _ (hp _) (.inl (hq' _)) ⟨?_, ?_, fun _ _ _ => rfl⟩
      · show _ + (_ + 0) = _ + (_ + if succeeded (nx (db.keys k)) then 1 else 0)
        rw [e1]; rfl
      · show _ + (_ + 0) = _ + (_ + if errored (nx (db.keys k)) then 1 else 0)
        rw [e2]; rfl
    | onCtr m upd nx =>
      have hq' : Owes (.onCtr m upd nx) := by simpa [succeeded, errored] using hq
      have hm := hok _ _ (hdb m)
      unfold Room at hm
      have h6 := hp _ (hdb m)
      have out : ∀ m', (db.setCtr m (upd (db.ctrs m))).ctrs m' = if m' = m then upd (db.ctrs m) else db.ctrs m' := fun _ => rfl
      have fin : (Owes (nx (db.ctrs m)) ∨ succeeded (nx (db.ctrs m)) = true ∨ errored (nx (db.ctrs m)) = true) →
          ((db.setCtr m (upd (db.ctrs m))).ctrs .commandsSuccessful).getD 0 =
            (db.ctrs .commandsSuccessful).getD 0 + (if succeeded (nx (db.ctrs m)) then 1 else 0) →
          ((db.setCtr m (upd (db.ctrs m))).ctrs .commandsErrored).getD 0 =
            (db.ctrs .commandsErrored).getD 0 + (if errored (nx (db.ctrs m)) then 1 else 0) →
          (∀ m', m' ≠ .commandsSuccessful → m' ≠ .commandsErrored →
            (db.setCtr m (upd (db.ctrs m))).ctrs m' = db.ctrs m') → _ := fun h7 h8 h9 h10 =>
        keep (nx (db.ctrs m)) (db.setCtr m (upd (db.ctrs m))) h6 h7 ⟨by
          rw [h8]
          show _ + _ + (_ + 0) = _ + (_ + if succeeded (nx (db.ctrs m)) then 1 else 0)
          omega, by
          rw [h9]
          show _ + _ + (_ + 0) = _ + (_ + if errored (nx (db.ctrs m)) then 1 else 0)
          omega, h10⟩
      rcases hq' _ hm with ⟨e1, e2⟩ | ⟨e1, ⟨rfl, a, e2⟩ | ⟨rfl, a, e2⟩⟩
      · have same : ∀ m', (db.setCtr m (upd (db.ctrs m))).ctrs m' = db.ctrs m' := fun m' => by
          rw [out]
          split
          · rename_i e; rw [e1, e]
          · rfl
        refine fin (.inl e2) ?_ ?_ fun m' _ _ => same m'
        · rw [same, e2.open.1]; rfl
        · rw [same, e2.open.2]; rfl
      · refine fin (.inr (.inl (by rw [e2]; rfl))) ?_ ?_ fun m' hm' _ => ?_
        · rw [out, if_pos rfl, e1, e2]; rfl
        · rw [out, if_neg (by decide), e2]; rfl
        · rw [out, if_neg hm']
      · refine fin (.inr (.inr (by rw [e2]; rfl))) ?_ ?_ fun m' _ hm' => ?_
        · rw [out, if_neg (by decide), e2]; rfl
        · rw [out, if_pos rfl, e1, e2]; rfl
        · rw [out, if_neg hm']
  | over e => exact calm _ ⟨hc, ps, hs, rs, sofar, h1, h2, h3, h4, hcnt, h5⟩
  | stuck => exact h5.elim

theorem told_arrive {env : Env} {ok : Metric → Option Nat → Prop} {got : Bytes} {closed : Prop} {s f : Nat} {c : Live}
    (h : LiveTold env ok got closed s f c) (hcl : c.closed = false) (bytes : Bytes) :
    LiveTold env ok (got ++ bytes) closed s f { c with pending := c.pending ++ bytes } := by
  obtain ⟨pending, cl, sent, task⟩ := c
  obtain ⟨hc, ps, hs, rs, sofar, h1, h2, h3, h4, hcnt, h5⟩ := h
  dsimp only at hcl
  subst hcl
  refine ⟨hc, ps, hs, rs, sofar, h1, h2, h3, h4, hcnt, ?_⟩
  cases task with
  | reading ctx input size =>
    obtain ⟨cur, hg, hn, hi, hw, hz, he⟩ := h5
    exact ⟨cur, by simp [hg], hn, hi, hw, hz, .inl (he.resolve_right fun h => by cases h.1)⟩
  | running p ctx =>
    obtain ⟨piece, cmd, hg, hl, he, hu⟩ := h5
    exact ⟨piece, cmd, by simp [hg], hl, .inl (he.resolve_right fun h => by cases h.1), hu⟩
  | over e =>
    cases e with
    | closed => cases h5.2
    | panicked =>
      obtain ⟨piece, hg, hl, he, hu⟩ := h5
      exact ⟨piece, by simp [hg], hl, .inl (he.resolve_right fun h => by cases h.1), hu⟩
  | stuck => exact h5.elim

theorem told_hangup {env : Env} {ok : Metric → Option Nat → Prop} {got : Bytes} {closed closed' : Prop} {s f : Nat} {c : Live}
    (h : LiveTold env ok got closed s f c) (hcl : closed') : LiveTold env ok got closed' s f { c with closed := true } := by
  obtain ⟨pending, cl, sent, task⟩ := c
  obtain ⟨hc, ps, hs, rs, sofar, h1, h2, h3, h4, hcnt, h5⟩ := h
  refine ⟨by simp [hcl], ps, hs, rs, sofar, h1, h2, h3, h4, hcnt, ?_⟩
  cases task with
  | reading ctx input size =>
    obtain ⟨cur, hg, hn, hi, hw, hz, he⟩ := h5
    exact ⟨cur, hg, hn, hi, hw, hz, he.imp_right fun h => ⟨rfl, h.2⟩⟩
  | running p ctx =>
    obtain ⟨piece, cmd, hg, hl, he, hu⟩ := h5
    exact ⟨piece, cmd, hg, hl, he.imp_right fun h => ⟨rfl, h.2⟩, hu⟩
  | over e =>
    cases e with
    | closed => exact ⟨h5.1, rfl⟩
    | panicked =>
      obtain ⟨piece, hg, hl, he, hu⟩ := h5
      exact ⟨piece, hg, hl, he.imp_right fun h => ⟨rfl, h.2⟩, hu⟩
  | stuck => exact h5.elim

theorem liveSum_set {l : List Nat} {j : Nat} (h : j < l.length) (a : Nat) : (l.set j a).sum + l.getD j 0 = l.sum + a := by
  induction l generalizing j with
  | nil => cases h
  | cons x l ih =>
    cases j with
    | zero => simp; omega
    | succ j =>
      have := ih (j := j) (by simpa using h)
      simp at this ⊢
      omega

theorem liveTold_exec (env : Env) (k : Nat) (db : Db) (events : List NetEvent) (hr : Roomy (1 + events.length) db.ctrs) :
    ∀ s u, events = s ++ u → ∃ ss fs : List Nat, ss.length = k ∧ fs.length = k ∧
      (∀ (i : Nat) c, ((Net.start k db).exec env s).conns[i]? = some c →
        LiveTold env (SeenAmid env (Net.start k db) events) (arrived i s) (.hangup i ∈ s) (ss.getD i 0) (fs.getD i 0) c) ∧
      Raised db ((Net.start k db).exec env s).db 0 0 ss.sum fs.sum := by
  have hok : ∀ m o, SeenAmid env (Net.start k db) events m o → Room m o := by
    rintro m _ ⟨s, t, e, rfl⟩
    have h1 := (tame_exec env k db s).2.2 m
    have h2 := hr m
    subst e
    unfold Room
    simp at h2
    omega
  intro s
  induction s using snoc_ind with
  | h0 =>
    intro u _
    refine ⟨List.replicate k 0, List.replicate k 0, by simp, by simp, fun i c hc => ?_, by simp [Raised, Net.exec, Net.start]⟩
    obtain ⟨-, rfl⟩ := List.mem_replicate.mp (List.mem_of_getElem? (show (List.replicate k _)[i]? = some c from hc))
    have hz : (List.replicate k 0).getD i 0 = 0 := by
      rw [List.getD_eq_getElem?_getD, List.getElem?_replicate]; split <;> rfl
    rw [hz]
    exact ⟨by simp, [], [], [], [], .nil, rfl, .start, rfl, ⟨rfl, rfl⟩, [], rfl, by simp, rfl, .start, rfl, .inl (.inl rfl)⟩
  | h1 s e ih =>
    intro u hu
    obtain ⟨ss, fs, hl1, hl2, ih, hraise⟩ := ih (e :: u) (by simp [hu])
    have hdb : ∀ m, SeenAmid env (Net.start k db) events m (((Net.start k db).exec env s).db.ctrs m) :=
      fun m => ⟨s, e :: u, by simp [hu], rfl⟩
    have hlen := net_length env k db s
    rw [net_exec_snoc]
    simp only [arrived_snoc]
    generalize (Net.start k db).exec env s = n at ih hdb hraise hlen
    -- nothing happens to connection `i`
    have same : ∀ (i : Nat) c', n.conns[i]? = some c' → brings i e = [] ∨ .hangup i ∈ s → e ≠ .hangup i →
        LiveTold env (SeenAmid env (Net.start k db) events) (arrived i s ++ if .hangup i ∈ s then [] else brings i e)
          (.hangup i ∈ s ++ [e]) (ss.getD i 0) (fs.getD i 0) c' := by
      intro i c' hc' hb hne
      have h := ih i c' hc'
      have e1 : (arrived i s ++ if .hangup i ∈ s then [] else brings i e) = arrived i s := by
        rcases hb with hb | hb <;> simp [hb]
      rw [e1]
      refine ⟨h.1.trans (by simp [Ne.symm hne]), h.2⟩
    have hdb' : ∀ e, (∀ j, e ≠ .turn j) → (n.step env e).db = n.db := by
      intro e he
      cases e with
      | arrive j bytes => simp only [Net.step]; (split; · rfl); (split <;> rfl)
      | hangup j => simp only [Net.step]; split <;> rfl
      | turn j => exact absurd rfl (he j)
    cases e with
    | arrive j bytes =>
      refine ⟨ss, fs, hl1, hl2, fun i c hc => ?_, by simpa only [hdb' (.arrive j bytes) (fun _ h => by cases h)] using hraise⟩
      simp only [Net.step] at hc
      cases hj : n.conns[j]? with
      | none =>
        rw [hj] at hc
        have : j ≠ i := fun e => by subst e; rw [hj] at hc; cases hc
        exact same i c hc (.inl (by simp [brings, this])) (by simp)
      | some d =>
        rw [hj] at hc
        dsimp only at hc
        by_cases hd : d.closed = true
        · rw [if_pos hd] at hc
          refine same i c hc ?_ (by simp)
          by_cases e : j = i
          · subst e
            exact .inr ((ih j d hj).1.mp hd)
          · exact .inl (by simp [brings, e])
        · rw [if_neg hd] at hc
          dsimp only at hc
          by_cases e : j = i
          · subst e
            rw [List.getElem?_set_self (List.getElem?_eq_some_iff.mp hj).1] at hc
            cases hc
            have h := told_arrive (ih j d hj) (by simpa using hd) bytes
            have hn : NetEvent.hangup j ∉ s := fun e => hd ((ih j d hj).1.mpr e)
            have e1 : (arrived j s ++ if .hangup j ∈ s then [] else brings j (.arrive j bytes)) = arrived j s ++ bytes := by
              simp [hn, brings]
            rw [e1]
            exact ⟨h.1.trans (by simp), h.2⟩
          · rw [List.getElem?_set_ne e] at hc
            exact same i c hc (.inl (by simp [brings, e])) (by simp)
    | hangup j =>
      refine ⟨ss, fs, hl1, hl2, fun i c hc => ?_, by simpa only [hdb' (.hangup j) (fun _ h => by cases h)] using hraise⟩
      simp only [Net.step] at hc
      cases hj : n.conns[j]? with
      | none =>
        rw [hj] at hc
        have : j ≠ i := fun e => by subst e; rw [hj] at hc; cases hc
        exact same i c hc (.inl rfl) (by simp [this])
      | some d =>
        rw [hj] at hc
        dsimp only at hc
        by_cases e : j = i
        · subst e
          rw [List.getElem?_set_self (List.getElem?_eq_some_iff.mp hj).1] at hc
          cases hc
          have e1 : (arrived j s ++ if .hangup j ∈ s then [] else brings j (.hangup j)) = arrived j s := by simp [brings]
          rw [e1]
          exact told_hangup (ih j d hj) (by simp)
        · rw [List.getElem?_set_ne e] at hc
          exact same i c hc (.inl rfl) (by simp [e])
    | turn j =>
      cases hj : n.conns[j]? with
      | none =>
        have e1 : n.step env (.turn j) = n := by simp only [Net.step, hj]
        rw [e1]
        exact ⟨ss, fs, hl1, hl2, fun i c hc => same i c hc (.inl rfl) (by simp), hraise⟩
      | some d =>
        obtain ⟨s', f', h, hrs⟩ := told_step hok (ih j d hj) hdb
        have e1 : n.step env (.turn j) = { conns := n.conns.set j (d.step env n.db).1, db := (d.step env n.db).2 } := by
          simp only [Net.step, hj]
        have hj' := (List.getElem?_eq_some_iff.mp hj).1
        rw [e1]
        refine ⟨ss.set j s', fs.set j f', by simp [hl1], by simp [hl2], fun i c hc => ?_, ?_⟩
        · dsimp only at hc
          by_cases e : j = i
          · subst e
            rw [List.getElem?_set_self hj'] at hc
            cases hc
            have e1 : (arrived j s ++ if .hangup j ∈ s then [] else brings j (.turn j)) = arrived j s := by simp [brings]
            have e2 : (ss.set j s').getD j 0 = s' := by
              rw [List.getD_eq_getElem?_getD, List.getElem?_set_self (by omega)]; rfl
            have e3 : (fs.set j f').getD j 0 = f' := by
              rw [List.getD_eq_getElem?_getD, List.getElem?_set_self (by omega)]; rfl
            rw [e1, e2, e3]
            exact ⟨h.1.trans (by simp), h.2⟩
          · rw [List.getElem?_set_ne e] at hc
            have e2 : (ss.set j s').getD i 0 = ss.getD i 0 := by
              rw [List.getD_eq_getElem?_getD, List.getElem?_set_ne e, List.getD_eq_getElem?_getD]
            have e3 : (fs.set j f').getD i 0 = fs.getD i 0 := by
              rw [List.getD_eq_getElem?_getD, List.getElem?_set_ne e, List.getD_eq_getElem?_getD]
            rw [e2, e3]
            exact same i c hc (.inl rfl) (by simp)
        · obtain ⟨r1, r2, r3⟩ := hraise
          obtain ⟨q1, q2, q3⟩ := hrs
          have z1 := liveSum_set (l := ss) (j := j) (by omega) s'
          have z2 := liveSum_set (l := fs) (j := j) (by omega) f'
          refine ⟨?_, ?_, fun m a b => (q3 m a b).trans (r3 m a b)⟩ <;> dsimp only <;> omega

/-! ## Coming to rest -/

theorem prog_step_ne {α} (p : Prog α) : (∀ r, p ≠ .done r) → ∀ db, (p.step db).1 ≠ p := by
  have key : ∀ p : Prog α, (∀ k upd next o, p = .onKey k upd next → next o ≠ p) ∧
      (∀ m upd next o, p = .onCtr m upd next → next o ≠ p) := by
    intro p
    induction p with
    | done r => exact ⟨fun _ _ _ _ e => (by cases e), fun _ _ _ _ e => (by cases e)⟩
    | onKey k upd next ih =>
      refine ⟨fun k' upd' next' o e => ?_, fun _ _ _ _ e => (by cases e)⟩
      cases e
      exact fun h => (ih o).1 k upd next o h rfl |>.elim
    | onCtr m upd next ih =>
      refine ⟨fun _ _ _ _ e => (by cases e), fun k' upd' next' o e => ?_⟩
      cases e
      exact fun h => (ih o).2 m upd next o h rfl |>.elim
  intro hp db
  cases p with
  | done r => exact absurd rfl (hp r)
  | onKey k upd next => exact (key _).1 k upd next _ rfl
  | onCtr m upd next => exact (key _).2 m upd next _ rfl

theorem look_pending (env : Env) (c : Live) (ctx : ReqParser.Ctx) (input : Bytes) :
    (c.look env ctx input).pending = c.pending := by
  unfold Live.look
  split <;> rfl

theorem look_task (env : Env) (c : Live) (ctx ctx' : ReqParser.Ctx) (input input' : Bytes) (size : Nat)
    (h : (c.look env ctx input).task = .reading ctx' input' size) : size = 0 := by
  unfold Live.look at h
  split at h <;> cases h <;> rfl

theorem look_closed (env : Env) (c : Live) (ctx : ReqParser.Ctx) (input : Bytes) :
    (c.look env ctx input).closed = c.closed := by
  unfold Live.look
  split <;> rfl

theorem step_pending (env : Env) (c : Live) (db : Db) :
    (c.step env db).1.closed = c.closed ∧ (c.step env db).1.pending.length ≤ c.pending.length := by
  obtain ⟨pending, closed, sent, task⟩ := c
  cases task with
  | reading ctx input size =>
    cases pending with
    | cons b rest => simp only [Live.step]; split <;> simp [look_pending, look_closed]
    | nil => simp only [Live.step]; split <;> (try split) <;> simp [look_pending, look_closed]
  | running p ctx => cases p with
    | done r => cases r <;> exact ⟨rfl, Nat.le_refl _⟩
    | onKey k upd next => exact ⟨rfl, Nat.le_refl _⟩
    | onCtr k upd next => exact ⟨rfl, Nat.le_refl _⟩
  | over e => exact ⟨rfl, Nat.le_refl _⟩
  | stuck => exact ⟨rfl, Nat.le_refl _⟩

/-- At rest: waiting for bytes, or at the end. -/
theorem resting {env : Env} {c : Live} {db : Db} (h : c.step env db = (c, db)) :
    (∃ ctx input size, c.task = .reading ctx input size ∧ c.pending = [] ∧ c.closed = false) ∨
      (∃ e, c.task = .over e) ∨ c.task = .stuck := by
  obtain ⟨pending, closed, sent, task⟩ := c
  cases task with
  | reading ctx input size =>
    refine .inl ⟨ctx, input, size, rfl, ?_⟩
    cases pending with
    | cons b rest =>
      have h := congrArg (fun x => x.1.pending.length) h
      simp only [Live.step] at h
      split at h
      · rw [look_pending] at h; simp at h
      · simp at h
    | nil =>
      refine ⟨rfl, ?_⟩
      cases closed with
      | false => rfl
      | true =>
        have h := congrArg (fun x => x.1.task) h
        simp only [Live.step, if_true] at h
        split at h
        · cases h
        · rename_i hz
          exact absurd (look_task _ _ _ _ _ _ _ h) hz
  | running p ctx =>
    have h := congrArg (fun x => x.1.task) h
    cases p with
    | done r => cases r <;> simp [Live.step] at h
    | onKey k upd next =>
      simp only [Live.step, Task.running.injEq, and_true] at h
      exact (prog_step_ne _ (by simp) db h).elim
    | onCtr k upd next =>
      simp only [Live.step, Task.running.injEq, and_true] at h
      exact (prog_step_ne _ (by simp) db h).elim
  | over e => exact .inr (.inl ⟨e, rfl⟩)
  | stuck => exact .inr (.inr rfl)

theorem atRest_step {env : Env} {n : Net} {i : Nat} {c : Live} (h : AtRest env n i) (hc : n.conns[i]? = some c) :
    c.step env n.db = (c, n.db) := by
  unfold AtRest at h
  simp only [Net.step, hc] at h
  have h1 := congrArg (fun n => n.conns[i]?) h
  have h2 := congrArg Net.db h
  dsimp only at h1 h2
  rw [List.getElem?_set_self (List.getElem?_eq_some_iff.mp hc).1, hc, Option.some.injEq] at h1
  exact Prod.ext h1 h2

/-- A connection comes to rest within `n` turns. -/
def RestsBy (c : Live) (n : Nat) : Prop :=
  match c.task with
  | .reading _ _ size =>
    6 * c.pending.length + (if c.closed then (if c.pending = [] ∧ size = 0 then 1 else 7) else 0) ≤ n
  | .running p _ => ∃ k, Short p k ∧
    k + 1 + (6 * c.pending.length + (if c.closed then (if c.pending = [] then 1 else 7) else 0)) ≤ n
  | .over _ => True
  | .stuck => True

theorem within_look (env : Env) {c : Live} {sofar piece : Bytes} {ctx : ReqParser.Ctx} (hw : Waiting sofar ctx) {n : Nat}
    (h : 5 + (6 * c.pending.length + (if c.closed then (if c.pending = [] then 1 else 7) else 0)) ≤ n) :
    RestsBy (c.look env ctx (sofar ++ piece)) n := by
  have hu := feed_understood hw piece
  unfold Live.look
  cases hf : ReqParser.feed ctx (sofar ++ piece) with
  | mk o c' =>
    rw [hf] at hu
    cases o with
    | request r =>
      obtain ⟨rfl, hr, -⟩ := hu
      refine ⟨4, ?_, by dsimp only; omega⟩
      rw [hr]
      exact short_dispatch env _ _
    | more => simp only [RestsBy, and_true]; omega
    | error e => simp only [RestsBy, and_true]; omega
    | panic => trivial
    | stuck => trivial

theorem within_step (env : Env) {c : Live} (ht : Tame c) {n : Nat} (h : RestsBy c (n + 1)) (db : Db) :
    RestsBy (c.step env db).1 n := by
  obtain ⟨pending, closed, sent, task⟩ := c
  cases task with
  | reading ctx input size =>
    obtain ⟨sofar, cur, rfl, hw⟩ := ht
    cases pending with
    | cons b rest =>
      simp only [RestsBy, List.length_cons, List.cons_ne_nil, false_and, if_false] at h
      simp only [Live.step]
      split
      · rw [List.append_assoc]
        refine within_look env hw ?_
        dsimp only
        split at h
        · rename_i hc; simp only [hc, if_true]; split <;> omega
        · rename_i hc; simp only [hc]; simp; omega
      · simp only [RestsBy, Nat.add_eq_zero_iff, Nat.succ_ne_self, and_false, if_false]
        omega
    | nil =>
      simp only [RestsBy, List.length_nil, true_and] at h
      simp only [Live.step]
      split
      · rename_i hc
        split
        · trivial
        · rename_i hz
          simp only [hc, if_true, hz, if_false] at h
          exact within_look env hw (by simp [hc]; omega)
      · rename_i hc
        simp only [RestsBy, hc]
        simp
  | running p ctx =>
    obtain ⟨k, hk, h⟩ := h
    dsimp only at h
    cases p with
    | done r =>
      cases r with
      | ok resp => simp only [Live.step, RestsBy, and_true]; omega
      | err resp => simp only [Live.step, RestsBy, and_true]; omega
      | panic => trivial
      | stuck => trivial
    | onKey m upd next =>
      obtain ⟨j, rfl, hk⟩ := hk
      exact ⟨j, hk _, (by omega : j + 1 + (6 * pending.length + (if closed then (if pending = [] then 1 else 7) else 0)) ≤ n)⟩
    | onCtr m upd next =>
      obtain ⟨j, rfl, hk⟩ := hk
      exact ⟨j, hk _, (by omega : j + 1 + (6 * pending.length + (if closed then (if pending = [] then 1 else 7) else 0)) ≤ n)⟩
  | over e => trivial
  | stuck => trivial

theorem within_zero {env : Env} {c : Live} (h : RestsBy c 0) (db : Db) : c.step env db = (c, db) := by
  obtain ⟨pending, closed, sent, task⟩ := c
  cases task with
  | reading ctx input size =>
    simp only [RestsBy] at h
    cases pending with
    | cons b rest => simp at h
    | nil =>
      cases closed with
      | true => simp at h; try (split at h <;> omega)
      | false => rfl
  | running p ctx => obtain ⟨k, -, h⟩ := h; omega
  | over e => rfl
  | stuck => rfl

theorem within_start {c : Live} (ht : Tame c) : RestsBy c (6 * c.pending.length + 12) := by
  obtain ⟨pending, closed, sent, task⟩ := c
  cases task with
  | reading ctx input size => simp only [RestsBy]; split <;> (try split) <;> omega
  | running p ctx => exact ⟨4, ht.2.2.2, by dsimp only; split <;> (try split) <;> omega⟩
  | over e => trivial
  | stuck => trivial

theorem RestsBy.mono {c : Live} {n k : Nat} (h : RestsBy c n) (hk : n ≤ k) : RestsBy c k := by
  obtain ⟨pending, closed, sent, task⟩ := c
  cases task with
  | reading ctx input size => exact Nat.le_trans h hk
  | running p ctx => obtain ⟨j, h1, h2⟩ := h; exact ⟨j, h1, Nat.le_trans h2 hk⟩
  | over e => trivial
  | stuck => trivial

/-- Events that leave connection `i` alone but for its turns. -/
theorem within_exec (env : Env) (i : Nat) (u : List NetEvent) (hu : ∀ e ∈ u, brings i e = [] ∧ e ≠ .hangup i) :
    ∀ (n : Net) (c : Live) (b : Nat), (∀ c ∈ n.conns, Tame c) → n.conns[i]? = some c → RestsBy c (b + u.count (.turn i)) →
      ∃ c', (n.exec env u).conns[i]? = some c' ∧ RestsBy c' b := by
  induction u with
  | nil => exact fun n c b _ hc hw => ⟨c, hc, by simpa using hw⟩
  | cons e u ih =>
    intro n c b ht hc hw
    have hu' : ∀ e ∈ u, brings i e = [] ∧ e ≠ .hangup i := fun e he => hu e (List.mem_cons_of_mem _ he)
    have key : ∀ {j : Nat} {a : Live}, Tame a → ∀ c ∈ n.conns.set j a, Tame c := fun ha c hc => by
      rcases List.mem_or_eq_of_mem_set hc with h | rfl
      · exact ht c h
      · exact ha
    have hi := (List.getElem?_eq_some_iff.mp hc).1
    show ∃ c', ((n.step env e).exec env u).conns[i]? = some c' ∧ RestsBy c' b
    cases e with
    | arrive j bytes =>
      have hcnt : (NetEvent.arrive j bytes :: u).count (.turn i) = u.count (.turn i) := by simp
      rw [hcnt] at hw
      simp only [Net.step]
      split
      · exact ih hu' n c b ht hc hw
      · rename_i d hd
        split
        · exact ih hu' n c b ht hc hw
        · have htd : Tame { d with pending := d.pending ++ bytes } := ht d (List.mem_of_getElem? hd)
          by_cases e : j = i
          · subst e
            have hb : bytes = [] := by simpa [brings] using (hu _ (List.mem_cons_self ..)).1
            rw [hc] at hd
            cases hd
            refine ih hu' _ { c with pending := c.pending ++ bytes } b (key htd) ?_ ?_
            · exact List.getElem?_set_self hi
            · subst hb; simpa using hw
          · exact ih hu' _ c b (key htd) (by rw [← hc]; exact List.getElem?_set_ne e) hw
    | hangup j =>
      have hcnt : (NetEvent.hangup j :: u).count (.turn i) = u.count (.turn i) := by simp
      rw [hcnt] at hw
      simp only [Net.step]
      split
      · exact ih hu' n c b ht hc hw
      · rename_i d hd
        have e : j ≠ i := fun e => (hu _ (List.mem_cons_self ..)).2 (by rw [e])
        have htd : Tame { d with closed := true } := ht d (List.mem_of_getElem? hd)
        exact ih hu' _ c b (key htd) (by rw [← hc]; exact List.getElem?_set_ne e) hw
    | turn j =>
      simp only [Net.step]
      by_cases e : j = i
      · subst e
        rw [hc]
        dsimp only
        rw [List.count_cons_self, ← Nat.add_assoc] at hw
        refine ih hu' _ (c.step env n.db).1 b (key (tame_step env (ht c (List.mem_of_getElem? hc)) n.db).1) ?_
          (within_step env (ht c (List.mem_of_getElem? hc)) hw n.db)
        exact List.getElem?_set_self hi
      · have hcnt : (NetEvent.turn j :: u).count (.turn i) = u.count (.turn i) := by simp [e]
        rw [hcnt] at hw
        split
        · exact ih hu' n c b ht hc hw
        · rename_i d hd
          exact ih hu' _ c b (key (tame_step env (ht d (List.mem_of_getElem? hd)) n.db).1)
            (by rw [← hc]; exact List.getElem?_set_ne e) hw

/-- No more is waiting to be read than has arrived. -/
theorem pending_le (env : Env) (k : Nat) (db : Db) (s : List NetEvent) (i : Nat) :
    ∀ c, ((Net.start k db).exec env s).conns[i]? = some c →
      (c.closed = true ↔ .hangup i ∈ s) ∧ c.pending.length ≤ (arrived i s).length := by
  induction s using snoc_ind with
  | h0 =>
    intro c hc
    obtain ⟨-, rfl⟩ := List.mem_replicate.mp (List.mem_of_getElem? (show (List.replicate k _)[i]? = some c from hc))
    exact ⟨by simp, Nat.le_refl _⟩
  | h1 s e ih =>
    intro c hc
    rw [net_exec_snoc] at hc
    rw [arrived_snoc, List.length_append]
    generalize (Net.start k db).exec env s = n at ih hc
    have same : ∀ c', n.conns[i]? = some c' → e ≠ .hangup i → (c'.closed = true ↔ .hangup i ∈ s ++ [e]) ∧
        c'.pending.length ≤ (arrived i s).length + (if .hangup i ∈ s then [] else brings i e).length := by
      intro c' hc' hne
      have h := ih c' hc'
      exact ⟨h.1.trans (by simp [Ne.symm hne]), by omega⟩
    cases e with
    | arrive j bytes =>
      simp only [Net.step] at hc
      cases hj : n.conns[j]? with
      | none => rw [hj] at hc; exact same c hc (by simp)
      | some d =>
        rw [hj] at hc
        dsimp only at hc
        by_cases hd : d.closed = true
        · rw [if_pos hd] at hc; exact same c hc (by simp)
        · rw [if_neg hd] at hc
          dsimp only at hc
          by_cases e : j = i
          · subst e
            rw [List.getElem?_set_self (List.getElem?_eq_some_iff.mp hj).1] at hc
            cases hc
            have h := ih d hj
            have hn : NetEvent.hangup j ∉ s := fun e => hd (h.1.mpr e)
            refine ⟨h.1.trans (by simp), ?_⟩
            simp only [hn, if_false, brings, if_true, List.length_append]
            omega
          · rw [List.getElem?_set_ne e] at hc; exact same c hc (by simp)
    | hangup j =>
      simp only [Net.step] at hc
      cases hj : n.conns[j]? with
      | none =>
        rw [hj] at hc
        have : j ≠ i := fun e => by subst e; rw [hj] at hc; cases hc
        exact same c hc (by simp [this])
      | some d =>
        rw [hj] at hc
        dsimp only at hc
        by_cases e : j = i
        · subst e
          rw [List.getElem?_set_self (List.getElem?_eq_some_iff.mp hj).1] at hc
          cases hc
          exact ⟨by simp, by have := (ih d hj).2; dsimp only; omega⟩
        · rw [List.getElem?_set_ne e] at hc; exact same c hc (by simp [e])
    | turn j =>
      simp only [Net.step] at hc
      cases hj : n.conns[j]? with
      | none => rw [hj] at hc; exact same c hc (by simp)
      | some d =>
        rw [hj] at hc
        dsimp only at hc
        by_cases e : j = i
        · subst e
          rw [List.getElem?_set_self (List.getElem?_eq_some_iff.mp hj).1] at hc
          cases hc
          have h := ih d hj
          have h2 := step_pending env d n.db
          exact ⟨by rw [h2.1]; exact h.1.trans (by simp), by omega⟩
        · rw [List.getElem?_set_ne e] at hc; exact same c hc (by simp)

/-! ## C155 -/

/-- C155, the database: whatever arrives at any number of connections, whenever, no key ever changes. -/
theorem C155_keys (env : Env) (k : Nat) (db : Db) (events : List NetEvent) :
    ((Net.start k db).exec env events).db.keys = db.keys :=
  (tame_exec env k db events).2.1

/-- C155, at every moment: what a connection has been sent is one response frame for each thing heard in an initial part
of what has arrived. -/
theorem C155_sent (env : Env) (k : Nat) (db : Db) (events : List NetEvent) (hr : Roomy (1 + events.length) db.ctrs) (i : Nat)
    (hi : i < k) :
    ∃ part rest hs e rs, arrived i events = part ++ rest ∧ Hears [] (Server.lines part) hs e ∧
      All2 (Responds (SeenAmid env (Net.start k db) events)) hs rs ∧
      sentTo ((Net.start k db).exec env events) i = wire env rs := by
  have hl := net_length env k db events
  have hc := List.getElem?_eq_getElem (show i < ((Net.start k db).exec env events).conns.length by omega)
  obtain ⟨ss, fs, -, -, h, -⟩ := liveTold_exec env k db events hr events [] (by simp)
  have h := h i _ hc
  generalize ((Net.start k db).exec env events).conns[i] = c at hc h
  obtain ⟨-, ps, hs, rs, sofar, h1, h2, h3, h4, -, h5⟩ := h
  have hs' : sentTo ((Net.start k db).exec env events) i = wire env rs := by simp [sentTo, hc, h2]
  suffices H : ∃ rest, arrived i events = ps.flatten ++ rest by
    obtain ⟨rest, H⟩ := H
    exact ⟨ps.flatten, rest, hs, _, rs, H, by rw [h4]; exact h3.closed, h1, hs'⟩
  split at h5
  · obtain ⟨cur, h, -⟩ := h5; exact ⟨_, by rw [h, List.append_assoc]⟩
  · obtain ⟨piece, cmd, h, -⟩ := h5; exact ⟨_, by rw [h, List.append_assoc]⟩
  · obtain ⟨piece, h, -⟩ := h5; exact ⟨_, by rw [h, List.append_assoc]⟩
  · exact ⟨[], by simpa using h5.1⟩
  · exact h5.elim

theorem settled_of_told {env : Env} {k : Nat} {db : Db} {events : List NetEvent} {i : Nat} {c : Live}
    (hc : ((Net.start k db).exec env events).conns[i]? = some c)
    (hrest : AtRest env ((Net.start k db).exec env events) i) {s f : Nat}
    (h : LiveTold env (SeenAmid env (Net.start k db) events) (arrived i events) (.hangup i ∈ events) s f c) :
    ∃ rs, Settled env (Net.start k db) events i rs ∧ s = rs.countP isValue ∧ f = rs.countP isFailure := by
  have hst := resting (atRest_step hrest hc)
  obtain ⟨h0, ps, hs, rs, sofar, h1, h2, h3, h4, hcnt, h5⟩ := h
  have hcnt' : s = rs.countP isValue ∧ f = rs.countP isFailure := by
    rcases hst with ⟨_, _, _, ht, -⟩ | ⟨_, ht⟩ | ht <;> simpa [ht, oks, errs] using hcnt
  refine ⟨rs, ?_, hcnt'⟩
  have hs' : sentTo ((Net.start k db).exec env events) i = wire env rs := by simp [sentTo, hc, h2]
  have ho : ∀ e, IsOver ((Net.start k db).exec env events) i e ↔ c.task = .over e := fun e =>
    ⟨fun ⟨c', h, h'⟩ => by rw [hc] at h; cases h; exact h', fun h => ⟨c, hc, h⟩⟩
  rcases hst with ⟨ctx, input, size, ht, hp, hcl⟩ | ⟨e, ht⟩ | ht
  · rw [ht] at h5
    obtain ⟨cur, hg, hn, -, -, -, he⟩ := h5
    have hnh : NetEvent.hangup i ∉ events := fun h => by rw [h0.mpr h] at hcl; cases hcl
    refine ⟨ps.flatten, hs, .closed, ?_, by rw [h4]; exact h3.closed, h1, hs', ?_, ?_⟩
    · rw [if_neg hnh]
      exact ⟨cur, by simpa [hp] using hg, hn, he.resolve_right fun h => by rw [hcl] at h; cases h.1⟩
    · simp [ho, ht]
    · simp [ho, ht, hnh]
  · rw [ht] at h5
    cases e with
    | closed =>
      obtain ⟨hg, hcl⟩ := h5
      have hh := h0.mp hcl
      refine ⟨ps.flatten, hs, .closed, by rw [if_pos hh, hg], by rw [h4]; exact h3.closed, h1, hs', ?_, ?_⟩
      · simp [ho, ht]
      · simp [ho, ht, hh]
    | panicked =>
      obtain ⟨piece, hg, hl', he, hov⟩ := h5
      have crash : ∀ rest, Hears [] ((ps ++ [piece]) ++ rest) hs .panicked := fun rest => by
        simpa using h3.hears (Hears.crash (pieces := rest) hov)
      by_cases hh : NetEvent.hangup i ∈ events
      · refine ⟨arrived i events, hs, .panicked, by rw [if_pos hh], ?_, h1, hs', ?_, ?_⟩
        · rw [hg]
          rcases he with he | ⟨-, hp⟩
          · rw [lines_append he, hl']; exact crash _
          · rw [hp, List.append_nil, hl']; simpa using crash []
        · simp [ho, ht]
        · simp [ho, ht]
      · have he : EndsLine (ps.flatten ++ piece) := he.resolve_right fun h => hh (h0.mp h.1)
        obtain ⟨w, rest, h6, h7, h8⟩ := exists_whole c.pending
        refine ⟨ps.flatten ++ piece ++ w, hs, .panicked, ?_, ?_, h1, hs', ?_, ?_⟩
        · rw [if_neg hh]
          exact ⟨rest, by rw [hg, h6]; simp, h7, he.append h8⟩
        · rw [lines_append he, hl']; exact crash _
        · simp [ho, ht]
        · simp [ho, ht]
  · rw [ht] at h5; exact h5.elim

/-- C155, when the server has nothing left to do for a connection: exactly what is heard in the whole lines that have
arrived has been answered, and in the last, unfinished line only if the client has hung up. -/
theorem C155_rest (env : Env) (k : Nat) (db : Db) (events : List NetEvent) (hr : Roomy (1 + events.length) db.ctrs) (i : Nat)
    (hi : i < k) (hrest : AtRest env ((Net.start k db).exec env events) i) :
    ∃ rs, Settled env (Net.start k db) events i rs := by
  have hl := net_length env k db events
  have hc := List.getElem?_eq_getElem (show i < ((Net.start k db).exec env events).conns.length by omega)
  obtain ⟨ss, fs, -, -, h, -⟩ := liveTold_exec env k db events hr events [] (by simp)
  obtain ⟨rs, h, -⟩ := settled_of_told hc hrest (h i _ hc)
  exact ⟨rs, h⟩

theorem sum_range_getD (l : List Nat) : l.sum = ((List.range l.length).map fun i => l.getD i 0).sum := by
  congr 1
  apply List.ext_getElem
  · simp
  · intro i h1 h2
    simp [h1]

/-- C155, the counters when the server has nothing left to do for any connection: every command that has been answered has
been counted once, by how it was answered. -/
theorem C155_counts (env : Env) (k : Nat) (db : Db) (events : List NetEvent) (hr : Roomy (1 + events.length) db.ctrs)
    (hrest : ∀ i < k, AtRest env ((Net.start k db).exec env events) i) :
    ∃ rss : Nat → List Response, (∀ i < k, Settled env (Net.start k db) events i (rss i)) ∧
      let n := (Net.start k db).exec env events
      (n.db.ctrs .commandsSuccessful).getD 0 =
        (db.ctrs .commandsSuccessful).getD 0 + ((List.range k).map fun i => (rss i).countP isValue).sum ∧
      (n.db.ctrs .commandsErrored).getD 0 =
        (db.ctrs .commandsErrored).getD 0 + ((List.range k).map fun i => (rss i).countP isFailure).sum ∧
      ∀ m, m ≠ .commandsSuccessful → m ≠ .commandsErrored → n.db.ctrs m = db.ctrs m := by
  have hl := net_length env k db events
  obtain ⟨ss, fs, hs, hf, h, r1, r2, r3⟩ := liveTold_exec env k db events hr events [] (by simp)
  have key : ∀ i, ∃ rs, i < k → Settled env (Net.start k db) events i rs ∧ ss.getD i 0 = rs.countP isValue ∧
      fs.getD i 0 = rs.countP isFailure := by
    intro i
    by_cases hi : i < k
    · have hc := List.getElem?_eq_getElem (show i < ((Net.start k db).exec env events).conns.length by omega)
      obtain ⟨rs, h⟩ := settled_of_told hc (hrest i hi) (h i _ hc)
      exact ⟨rs, fun _ => h⟩
    · exact ⟨[], fun h => absurd h hi⟩
  obtain ⟨rss, hrss⟩ := Classical.axiomOfChoice key
  refine ⟨rss, fun i hi => (hrss i hi).1, ?_, ?_, r3⟩
  · have e1 : ((List.range k).map fun i => (rss i).countP isValue) = (List.range k).map fun i => ss.getD i 0 :=
      List.map_congr_left fun i hi => ((hrss i (by simpa using hi)).2.1).symm
    have z := sum_range_getD ss
    rw [hs] at z
    rw [e1, ← z]
    simpa using r1
  · have e1 : ((List.range k).map fun i => (rss i).countP isFailure) = (List.range k).map fun i => fs.getD i 0 :=
      List.map_congr_left fun i hi => ((hrss i (by simpa using hi)).2.2).symm
    have z := sum_range_getD fs
    rw [hf] at z
    rw [e1, ← z]
    simpa using r2

/-- C155, coming to rest: once nothing more arrives at a connection, a number of turns bounded by what has arrived is
enough, whatever happens to the others. -/
theorem C155_soon (env : Env) (k : Nat) (db : Db) (before after : List NetEvent) (i : Nat) (hi : i < k)
    (hu : ∀ e ∈ after, e ≠ .hangup i ∧ ∀ bytes, bytes ≠ [] → e ≠ .arrive i bytes)
    (hn : 6 * (arrived i before).length + 12 ≤ after.count (.turn i)) :
    AtRest env ((Net.start k db).exec env (before ++ after)) i := by
  rw [net_exec_append]
  obtain ⟨c, hc⟩ : ∃ c, ((Net.start k db).exec env before).conns[i]? = some c :=
    ⟨_, List.getElem?_eq_getElem (by rw [net_length]; exact hi)⟩
  have ht := (tame_exec env k db before).1
  have hp := (pending_le env k db before i _ hc).2
  generalize (Net.start k db).exec env before = n at hc ht hp
  have hw := (within_start (ht c (List.mem_of_getElem? hc))).mono (k := 0 + after.count (.turn i)) (by omega)
  obtain ⟨c', h1, h2⟩ := within_exec env i after (fun e he => by
    refine ⟨?_, (hu e he).1⟩
    cases e with
    | arrive j bytes =>
      simp only [brings]
      split
      · rename_i e; subst e
        exact Classical.byContradiction fun h => (hu _ he).2 bytes h rfl
      · rfl
    | hangup j => rfl
    | turn j => rfl) n c 0 ht hc hw
  unfold AtRest
  generalize n.exec env after = n' at h1
  simp only [Net.step, h1]
  rw [within_zero h2]
  obtain ⟨hi', h3⟩ := List.getElem?_eq_some_iff.mp h1
  subst h3
  simp

/-- C155, a client that waits: as long as no newline has arrived and the client has not hung up, nothing is sent. -/
theorem C155_silence (env : Env) (k : Nat) (db : Db) (events : List NetEvent) (i : Nat) (hn : (10 : UInt8) ∉ arrived i events)
    (hh : .hangup i ∉ events) : sentTo ((Net.start k db).exec env events) i = [] := by
  cases hc : ((Net.start k db).exec env events).conns[i]? with
  | none => simp [sentTo, hc]
  | some c =>
    suffices H : ∀ s u, events = s ++ u → ∀ c, ((Net.start k db).exec env s).conns[i]? = some c →
        c.sent = [] ∧ c.closed = false ∧ (∃ ctx input size, c.task = .reading ctx input size) ∧ (10 : UInt8) ∉ c.pending by
      simp [sentTo, hc, (H events [] (by simp) c hc).1]
    clear hc c
    intro s
    induction s using snoc_ind with
    | h0 =>
      intro u _ c hc
      obtain ⟨-, rfl⟩ := List.mem_replicate.mp (List.mem_of_getElem? (show (List.replicate k _)[i]? = some c from hc))
      exact ⟨rfl, rfl, ⟨_, _, _, rfl⟩, by simp⟩
    | h1 s e ih =>
      intro u hu c hc
      have ih := ih (e :: u) (by simp [hu])
      have hnh : NetEvent.hangup i ∉ s ++ [e] := fun h => hh (by rw [hu]; exact List.mem_append_left _ h)
      rw [net_exec_snoc] at hc
      generalize (Net.start k db).exec env s = n at ih hc
      cases e with
      | arrive j bytes =>
        simp only [Net.step] at hc
        cases hj : n.conns[j]? with
        | none => rw [hj] at hc; exact ih c hc
        | some d =>
          rw [hj] at hc
          dsimp only at hc
          split at hc
          · exact ih c hc
          · by_cases e : j = i
            · subst e
              dsimp only at hc
              rw [List.getElem?_set_self (List.getElem?_eq_some_iff.mp hj).1] at hc
              cases hc
              obtain ⟨h1, h2, h3, h4⟩ := ih d hj
              refine ⟨h1, h2, h3, ?_⟩
              have hb : (10 : UInt8) ∉ bytes := by
                intro hb
                apply hn
                rw [hu]
                obtain ⟨t, ht⟩ := arrived_append j (s ++ [.arrive j bytes]) u
                rw [ht, arrived_snoc, if_neg fun h => hnh (List.mem_append_left _ h)]
                simp [brings, hb]
              simp [h4, hb]
            · rw [List.getElem?_set_ne e] at hc; exact ih c hc
      | hangup j =>
        simp only [Net.step] at hc
        cases hj : n.conns[j]? with
        | none => rw [hj] at hc; exact ih c hc
        | some d =>
          rw [hj] at hc
          dsimp only at hc
          have e : j ≠ i := fun e => hnh (by simp [e])
          rw [List.getElem?_set_ne e] at hc; exact ih c hc
      | turn j =>
        simp only [Net.step] at hc
        cases hj : n.conns[j]? with
        | none => rw [hj] at hc; exact ih c hc
        | some d =>
          rw [hj] at hc
          dsimp only at hc
          by_cases e : j = i
          · subst e
            rw [List.getElem?_set_self (List.getElem?_eq_some_iff.mp hj).1] at hc
            cases hc
            obtain ⟨h1, h2, ⟨ctx, input, size, h3⟩, h4⟩ := ih d hj
            obtain ⟨pending, closed, sent, task⟩ := d
            dsimp only at h1 h2 h3 h4
            subst h1 h2 h3
            cases pending with
            | nil => exact ⟨rfl, rfl, ⟨_, _, _, rfl⟩, by simp [Live.step]⟩
            | cons b rest =>
              simp only [List.mem_cons, not_or] at h4
              simp only [Live.step, if_neg (Ne.symm h4.1)]
              exact ⟨trivial, trivial, ⟨_, _, _, rfl⟩, h4.2⟩
          · rw [List.getElem?_set_ne e] at hc; exact ih c hc

theorem overfull_append {a : Bytes} (h : Overfull a) (b : Bytes) : Overfull (a ++ b) := by
  obtain ⟨cmd, h1, chunks, tail, rfl, h3, h4, h5, h6⟩ := h
  refine ⟨cmd, h1, chunks, tail ++ b, by simp, h3, h4, by simp; omega, ?_⟩
  rw [List.take_append_of_le_length h5]
  simp; omega

/-- Something is heard if everything together is a request. -/
theorem hears_something {sofar : Bytes} {pieces : List Bytes} {hs : List Heard} {e : Server.End} {c : CommandId}
    (ha : Asks (sofar ++ pieces.flatten) c) (hne : pieces ≠ []) (h : Hears sofar pieces hs e) : hs ≠ [] := by
  induction h with
  | close => exact absurd rfl hne
  | @wait sofar piece pieces hs e h1 h2 h3 ih =>
    by_cases hp : pieces = []
    · subst hp
      exact (h1 (.command c) (show Asks (sofar ++ piece) c by simpa using ha)).elim
    · exact ih (by simpa using ha) hp
  | hear => simp
  | @crash sofar piece pieces h1 =>
    have := overfull_append h1 pieces.flatten
    exact (Asks.not_overfull ha (by simpa using this)).elim

/-! ## C154 -/

/-- C154, the full claim: once all bytes of a request have arrived and the server has nothing left to do, something has
been answered. -/
def C154_Statement : Prop :=
  ∀ (env : Env) (k : Nat) (db : Db) (events : List NetEvent) (i : Nat) (c : CommandId), i < k →
    Asks (arrived i events) c → AtRest env ((Net.start k db).exec env events) i →
    sentTo ((Net.start k db).exec env events) i ≠ []

/-- C154 is false: a request is answered only when a newline has arrived or the client hangs up. -/
theorem C154_false : ¬ C154_Statement := by
  intro h
  refine h (sampleEnv .debug) 1 (sampleDb []) ([.arrive 0 [101]] ++ List.replicate 18 (.turn 0)) 0 .stats (by decide)
    (.inl ⟨rfl, [], by decide +kernel⟩) ?_ (C155_silence _ _ _ _ _ (by decide +kernel) (by decide +kernel))
  exact C155_soon _ _ _ _ _ _ (by decide) (fun e he => by
    rw [(List.mem_replicate.mp he).2]; simp) (by decide +kernel)

/-- What is left of C154: if the bytes of the request end with a newline and nothing before was understood, it is answered
(missing: requests that do not end with a newline; false, `C154_false`). -/
theorem C154_newline_partial (env : Env) (k : Nat) (db : Db) (events : List NetEvent) (hr : Roomy (1 + events.length) db.ctrs)
    (i : Nat) (hi : i < k) (c : CommandId) (ha : Asks (arrived i events) c) (hl : (arrived i events).getLast? = some 10)
    (hrest : AtRest env ((Net.start k db).exec env events) i) :
    sentTo ((Net.start k db).exec env events) i ≠ [] := by
  obtain ⟨rs, part, hs, e, h1, h2, h3, h4, -⟩ := C155_rest env k db events hr i hi hrest
  have hp : part = arrived i events := by
    split at h1
    · exact h1
    · obtain ⟨rest, h5, h6, -⟩ := h1
      have : rest = [] := by
        apply Classical.byContradiction
        intro hne
        rw [h5, List.getLast?_append] at hl
        cases hg : rest.getLast? with
        | none => exact hne (List.getLast?_eq_none_iff.mp hg)
        | some b =>
          rw [hg] at hl
          simp at hl
          subst hl
          exact h6 (List.mem_of_getLast? hg)
      rw [h5, this, List.append_nil]
  rw [h4]
  subst hp
  have hne : Server.lines (arrived i events) ≠ [] := lines_ne_nil fun e => by rw [e] at hl; cases hl
  have hh : hs ≠ [] := by
    rintro rfl
    refine hears_something (c := c) ?_ hne h2 rfl
    rw [List.nil_append, (C63_pieces _).1]
    exact ha
  cases h3 with
  | nil => exact absurd rfl hh
  | cons _ _ =>
    intro h
    have := congrArg List.length h
    simp [wire, frame, beBytes_length] at this

/-! ## Concrete cases -/

/-- The first client sends an Append request in three parts and, having seen that it is refused, asks for statistics but
sends no newline; the second client sends an invalid command and hangs up. -/
def chatter : List NetEvent :=
  [.arrive 0 [20, 2, 0, 0, 0], .turn 0, .turn 0, .turn 0, .arrive 1 [99], .arrive 0 [1, 107, 0, 0, 0, 1, 10], .hangup 1] ++
    List.replicate 30 (.turn 0) ++ [.turn 1, .arrive 0 [101]] ++ List.replicate 100 (.turn 0) ++ List.replicate 18 (.turn 1)

example : let n := (Net.start 2 (sampleDb [])).exec (sampleEnv .debug) chatter
    (sentTo n 0, sentTo n 1) =
      (wire (sampleEnv .debug) [.dispatchError .keyUnspecified], wire (sampleEnv .debug) [.parseError .commandIdInvalid]) := by
  decide +kernel

theorem roomy_chatter : Roomy (1 + chatter.length) (sampleDb []).ctrs := by
  intro m
  cases m <;> decide +kernel

theorem chatter_rests : ∀ i < 2, AtRest (sampleEnv .debug) ((Net.start 2 (sampleDb [])).exec (sampleEnv .debug) chatter) i := by
  intro i hi
  rw [show chatter = chatter.take 39 ++ chatter.drop 39 from (List.take_append_drop 39 chatter).symm]
  refine C155_soon _ _ _ _ _ _ hi (fun e he => ?_) ?_
  · have : ∀ e ∈ chatter.drop 39, e = .turn 0 ∨ e = .turn 1 := by decide +kernel
    rcases this e he with rfl | rfl <;> simp
  · have : ∀ i < 2, 6 * (arrived i (chatter.take 39)).length + 12 ≤ (chatter.drop 39).count (.turn i) := by decide +kernel
    exact this i hi

example := C155_counts (sampleEnv .debug) 2 (sampleDb []) chatter roomy_chatter chatter_rests

example : let n := (Net.start 2 (sampleDb [])).exec (sampleEnv .debug) chatter
    n.db.ctrs .commandsSuccessful = none ∧ n.db.ctrs .commandsErrored = some 1 := by decide +kernel

/-- The same, for a request that ends with a newline. -/
example : sentTo ((Net.start 1 (sampleDb [])).exec (sampleEnv .debug)
    ([.arrive 0 [101], .turn 0, .arrive 0 [10]] ++ List.replicate 24 (.turn 0))) 0 ≠ [] :=
  C154_newline_partial _ _ _ _ (by intro m; cases m <;> decide +kernel) 0 (by decide) .stats
    (.inl ⟨rfl, [10], by decide +kernel⟩) (by decide +kernel)
    (C155_soon _ _ _ _ _ _ (by decide) (fun e he => by rw [(List.mem_replicate.mp he).2]; simp) (by decide +kernel))

end Hop
