import Verif.Props.ClientStores
import Verif.Props.Growth
import Verif.Props.Notation
import Verif.Props.CliStores
import Verif.Props.Callers

/-!
# How much there can come to be stored by calls through an in-memory client, and by lines typed into the CLI (C216, C217)
-/

namespace Hop

open Prog Spec
open Hop.Cli (Text Std)

/-- The commands that only look. -/
def Spec.looking : List CommandId := [.echo, .exists, .get, .is, .keys, .length, .stats, .type]

/-- How many bytes a command hands over, if it may change anything: the arguments, four more for each, four more for the
command, and one for the type if one is named. -/
def Spec.handedOver (c : Call) : Nat :=
  if c.cmd ∈ looking then 0 else 4 + (if c.kt.isSome then 1 else 0) + (c.args.map fun x => 4 + x.length).sum

private theorem beBytes_size (n x : Nat) : (beBytes n x).length = n := by simp

private theorem encode_size (c : CommandId) (kt : Option KeyType) (args : List Bytes) :
    (encode c kt args).length + 2 = 4 + (if kt.isSome then 1 else 0) + (args.map fun x => 4 + x.length).sum := by
  have : (args.flatMap encodeArg).length = (args.map fun x => 4 + x.length).sum := by
    induction args with
    | nil => rfl
    | cons a args ih => simp only [List.flatMap_cons, List.length_append, encodeArg, beBytes_size, ih, List.map_cons, List.sum_cons]
  cases kt <;> simp [encode, encodeHead, this] <;> omega

private theorem call_grows (env : Env) (a : Api) (db : Db) {ks : List Bytes} (hn : ks.Nodup) (hk : ∀ k v, db.keys k = some v → k ∈ ks) :
    stored ks ((a.start env).run db).2.keys ≤ stored ks db.keys + handedOver (a.call env) := by
  rcases start_any env a with ⟨o, h⟩ | ⟨-, -, r, g, hv, h, hg⟩
  · rw [h]; exact Nat.le_add_right _ _
  · have hdb : ((a.start env).run db).2 = ((dispatch env r []).run db).2 := by
      rw [h, run_andThen]
      obtain ⟨x, hx⟩ := hg ((dispatch env r []).run db).1
      rw [hx]; rfl
    rw [hdb]
    unfold handedOver
    split
    · rename_i hc
      rw [C20_read_only env r [] db (by rw [hv.command]; exact hc)]
      exact Nat.le_refl _
    · let b : Builder := ⟨(a.call env).args.length, encode (a.call env).cmd (a.call env).kt (a.call env).args, (a.call env).cmd, (a.call env).kt,
        positionsOf (baseOf (a.call env).kt + 1) (a.call env).args⟩
      have hb : BInv b (a.call env).cmd (a.call env).kt (a.call env).args := ⟨rfl, rfl, rfl, rfl, rfl⟩
      rw [C189_used hv hb.views rfl []]
      have := C198_history env [(b.intoRequest, [])] db ks hn hk
      simp only [serveAll, List.map_cons, List.map_nil, List.sum_cons, List.sum_nil] at this
      have he : b.intoRequest.buf.length + 2 = _ := encode_size (a.call env).cmd (a.call env).kt (a.call env).args
      omega

private theorem run_few {α} (p : Prog α) (db : Db) : ∃ l : List Bytes, ∀ k, k ∉ l → (p.run db).2.keys k = db.keys k := by
  induction p generalizing db with
  | done r => exact ⟨[], fun _ _ => rfl⟩
  | onKey k upd next ih =>
    obtain ⟨l, hl⟩ := ih (db.keys k) (db.setKey k (upd (db.keys k)))
    refine ⟨k :: l, fun x hx => ?_⟩
    rw [List.mem_cons, not_or] at hx
    refine (hl x hx.2).trans ?_
    simp only [Db.setKey, if_neg hx.1]
  | onCtr m upd next ih =>
    obtain ⟨l, hl⟩ := ih (db.ctrs m) (db.setCtr m (upd (db.ctrs m)))
    exact ⟨l, fun x hx => hl x hx⟩

private theorem more_keys {ks : List Bytes} (hn : ks.Nodup) (l : List Bytes) : ∃ ext, (ks ++ ext).Nodup ∧ ∀ k ∈ l, k ∈ ks ++ ext := by
  induction l with
  | nil => exact ⟨[], by simpa using hn, nofun⟩
  | cons x l ih =>
    obtain ⟨ext, h1, h2⟩ := ih
    by_cases hx : x ∈ ks ++ ext
    · refine ⟨ext, h1, fun k hk => ?_⟩
      rcases List.mem_cons.mp hk with rfl | hk
      · exact hx
      · exact h2 k hk
    · refine ⟨ext ++ [x], ?_, fun k hk => ?_⟩
      · rw [← List.append_assoc, List.nodup_append]
        refine ⟨h1, by simp, ?_⟩
        intro a ha b hb
        rw [List.mem_singleton.mp hb]
        rintro rfl
        exact hx ha
      · rw [← List.append_assoc]
        rcases List.mem_cons.mp hk with rfl | hk
        · simp
        · exact List.mem_append_left _ (h2 k hk)

private theorem stored_append (ks ext : List Bytes) (s : Store) : stored (ks ++ ext) s = stored ks s + stored ext s := by
  simp only [stored, List.map_append, List.sum_append]

private theorem stored_absent {ext : List Bytes} {s : Store} (h : ∀ k ∈ ext, s k = none) : stored ext s = 0 := by
  induction ext with
  | nil => rfl
  | cons k ext ih =>
    have := ih fun x hx => h x (List.mem_cons_of_mem _ hx)
    simp only [stored, List.map_cons, List.sum_cons, h k (List.mem_cons_self ..)] at this ⊢
    omega

/-- **C216.** Any calls through an in-memory client, one after the other, whatever they are given and whatever they come to: in the end there is at
most as much stored as at the beginning, and the bytes that the calls have handed over. -/
theorem C216_calls (env : Env) (l : List Api) (db : Db) (ks : List Bytes) (hn : ks.Nodup) (hk : ∀ k v, db.keys k = some v → k ∈ ks) :
    stored ks (callAll env l db).2.keys ≤ stored ks db.keys + (l.map fun a => handedOver (a.call env)).sum := by
  induction l generalizing db ks with
  | nil => exact Nat.le_refl _
  | cons a l ih =>
    obtain ⟨few, hfew⟩ := run_few (a.start env) db
    obtain ⟨ext, h1, h2⟩ := more_keys hn few
    have hout : ∀ k ∈ ext, db.keys k = none := by
      intro k hke
      cases hkv : db.keys k with
      | none => rfl
      | some v => exact absurd rfl ((List.nodup_append.mp h1).2.2 k (hk k v hkv) k hke)
    have hk' : ∀ k v, db.keys k = some v → k ∈ ks ++ ext := fun k v h => List.mem_append_left _ (hk k v h)
    have one := call_grows env a db h1 hk'
    have rest := ih ((a.start env).run db).2 (ks ++ ext) h1 fun k v h => by
      by_cases hf : k ∈ few
      · exact h2 k hf
      · rw [hfew k hf] at h; exact hk' k v h
    rw [stored_append ks ext db.keys, stored_absent hout] at one
    rw [stored_append ks ext (callAll env l _).2.keys] at rest
    show stored ks (callAll env l ((a.start env).run db).2).2.keys ≤ _
    simp only [List.map_cons, List.sum_cons]
    omega


/-- The bound is met, by a call that counts up a key that was not there. A call that only looks hands over nothing. -/
example (m : Mode) : handedOver ((Api.increment (ascii "visits") none).call (sampleEnv m)) = 14 ∧
    handedOver ((Api.exists [ascii "a", ascii "b"]).call (sampleEnv m)) = 0 ∧
    stored [ascii "visits"] (callAll (sampleEnv m) [.increment (ascii "visits") none, .exists [ascii "a", ascii "b"]] (sampleDb [])).2.keys = 14 := by
  cases m <;> decide +kernel

/-- Values given to `set` count in full, and those that replace others too. -/
example (m : Mode) : (([.set [7] (.list [[1], [2, 3]]), .set [7] (.integer 1)] : List Api).map fun a => handedOver (a.call (sampleEnv m))).sum = 43 ∧
    stored [[7]] (callAll (sampleEnv m) [.set [7] (.list [[1], [2, 3]])] (sampleDb [])).2.keys = 14 ∧
    stored [[7]] (callAll (sampleEnv m) [.set [7] (.list [[1], [2, 3]]), .set [7] (.integer 1)] (sampleDb [])).2.keys = 9 := by
  cases m <;> decide +kernel

/-! ## Tasks that share a client -/

/-- The calls a task has made, and the one it is within if there is one, when its calls so far came to `got` and it makes up to `n`. -/
def Spec.callsBegun (c : Caller) (n : Nat) (got : List Resolved) : List Api :=
  (List.range (min n (got.length + 1))).filterMap fun j => c (got.take j)

private def madeBy (c : Caller) (k : Nat) (got : List Resolved) : List Api := (List.range k).filterMap fun j => c (got.take j)

private def cost (env : Env) (l : List Api) : Nat := (l.map fun a => handedOver (a.call env)).sum

private theorem madeBy_snoc (c : Caller) {k : Nat} {got : List Resolved} (x : Resolved) (hk : k ≤ got.length + 1) : madeBy c k (got ++ [x]) = madeBy c k got := by
  have : ∀ l : List Nat, (∀ j ∈ l, j ≤ got.length) → l.filterMap (fun j => c ((got ++ [x]).take j)) = l.filterMap fun j => c (got.take j) := by
    intro l hl
    induction l with
    | nil => rfl
    | cons j l ih =>
      simp only [List.filterMap_cons, List.take_append_of_le_length (hl j (List.mem_cons_self ..)), ih fun i hi => hl i (List.mem_cons_of_mem _ hi)]
  exact this _ fun j hj => by rw [List.mem_range] at hj; omega

private theorem madeBy_succ (env : Env) (c : Caller) (k : Nat) (got : List Resolved) :
    cost env (madeBy c (k + 1) got) = cost env (madeBy c k got) + match c (got.take k) with | none => 0 | some a => handedOver (a.call env) := by
  simp only [madeBy, cost, List.range_succ, List.filterMap_append, List.map_append, List.sum_append]
  cases h : c (got.take k) <;> simp [h]

/-- Where a task is: at its end, or within a call of which the request is at `u`. -/
private def Sits (env : Env) (c : Caller) (n : Nat) (got : List Resolved) (t : Prog (List Resolved)) (u : Prog Bytes) : Prop :=
  (t = .done (.ok got) ∧ (∃ o, u = .done o) ∧ (got.length = n ∨ got.length < n ∧ c got = none)) ∨
  ∃ a g, got.length < n ∧ c got = some a ∧ LeadsTo (a.start env) (u.andThen g) ∧ (∀ o, u ≠ .done o) ∧ (∀ o, ∃ x, g o = .done x) ∧
    t = (u.andThen g).andThen fun o => Caller.prog env c (n - got.length - 1) (got ++ [o])

private theorem Sits.amid {env : Env} {c : Caller} {n : Nat} {got : List Resolved} {t : Prog (List Resolved)} {u : Prog Bytes} (h : Sits env c n got t u) :
    c.Amid env n got t := by
  rcases h with ⟨h1, -, h2⟩ | ⟨a, g, h1, h2, h3, h4, -, h5⟩
  · exact .inl ⟨h1, h2⟩
  · refine .inr ⟨a, u.andThen g, h1, h2, h3, fun o ho => ?_, h5⟩
    cases u with
    | done o => exact h4 o rfl
    | onKey k upd next => cases ho
    | onCtr m upd next => cases ho

private theorem enter {env : Env} (c : Caller) (n : Nat) {base : Nat} {db : Db} {us : List (Prog Bytes)} {i : Nat} {o : Outcome DispatchError Bytes}
    (hi : us[i]? = some (.done o)) : ∀ (m : Nat) (got : List Resolved), got.length + m = n → HeldTo (base + cost env (madeBy c got.length got)) us db →
    ∃ got' u, HeldTo (base + cost env (callsBegun c n got')) (us.set i u) db ∧ Sits env c n got' (Caller.prog env c m got) u := by
  have hsame : us.set i (.done o) = us := by
    obtain ⟨h, e⟩ := List.getElem?_eq_some_iff.mp hi
    rw [← e, List.set_getElem_self]
  intro m
  induction m with
  | zero =>
    intro got hl hw
    refine ⟨got, .done o, ?_, .inl ⟨rfl, ⟨o, rfl⟩, .inl (by omega)⟩⟩
    rw [hsame]
    have : min n (got.length + 1) = got.length := by omega
    show HeldTo (base + cost env (madeBy c (min n (got.length + 1)) got)) us db
    rw [this]; exact hw
  | succ m ih =>
    intro got hl hw
    have hmin : min n (got.length + 1) = got.length + 1 := by omega
    have hsucc := madeBy_succ env c got.length got
    rw [List.take_length] at hsucc
    have hbegun : cost env (callsBegun c n got) = cost env (madeBy c (got.length + 1) got) := by
      show cost env (madeBy c (min n (got.length + 1)) got) = _
      rw [hmin]
    cases hc : c got with
    | none =>
      refine ⟨got, .done o, ?_, .inl ⟨?_, ⟨o, rfl⟩, .inr ⟨by omega, hc⟩⟩⟩
      · rw [hsame, hbegun, hsucc, hc]; exact hw
      · simp only [Caller.prog, hc]
    | some a =>
      rw [hc] at hsucc
      dsimp only at hsucc
      have skip : ∀ x, a.start env = .done x → ∃ got' u, HeldTo (base + cost env (callsBegun c n got')) (us.set i u) db ∧
          Sits env c n got' (Caller.prog env c (m + 1) got) u := by
        intro x hx
        have hp : Caller.prog env c (m + 1) got = Caller.prog env c m (got ++ [x]) := by
          simp only [Caller.prog, hc, hx]; rfl
        rw [hp]
        refine ih (got ++ [x]) (by simp; omega) (hw.mono ?_)
        rw [List.length_append, List.length_singleton, madeBy_snoc c x (Nat.le_refl _)]
        omega
      rcases start_any env a with ⟨x, hx⟩ | ⟨-, -, r, g, hv, h, hg⟩
      · exact skip x hx
      · let b : Builder := ⟨(a.call env).args.length, encode (a.call env).cmd (a.call env).kt (a.call env).args, (a.call env).cmd, (a.call env).kt,
          positionsOf (baseOf (a.call env).kt + 1) (a.call env).args⟩
        have hb : BInv b (a.call env).cmd (a.call env).kt (a.call env).args := ⟨rfl, rfl, rfl, rfl, rfl⟩
        rw [C189_used hv hb.views rfl []] at h
        by_cases hd : ∃ y, dispatch env b.intoRequest [] = .done y
        · obtain ⟨y, hy⟩ := hd
          obtain ⟨x, hx⟩ := hg y
          exact skip x (by rw [h, hy]; exact hx)
        · refine ⟨got, dispatch env b.intoRequest [], ?_, .inr ⟨a, g, by omega, hc, by rw [← h]; exact .here, fun y hy => hd ⟨y, hy⟩, hg, ?_⟩⟩
          · have := hw.next env b.intoRequest [] hi
            refine this.mono ?_
            have he : b.intoRequest.buf.length + 2 = _ := encode_size (a.call env).cmd (a.call env).kt (a.call env).args
            rw [hbegun, hsucc]
            show base + _ + (if (a.call env).cmd ∈ looking then 0 else b.intoRequest.buf.length + 2) ≤ _
            rw [he]
            unfold handedOver
            omega
          · have : n - got.length - 1 = m := by omega
            rw [this, ← h]
            simp only [Caller.prog, hc]

private theorem step_done {α} (r : Outcome DispatchError α) (db : Db) : (Prog.done r).step db = (.done r, db) := rfl

private def Everyone (env : Env) (cs : List (Caller × Nat)) (base : Nat) (p : Pool (List Resolved)) : Prop :=
  ∃ (us : List (Prog Bytes)) (ws : List Nat) (got : Nat → List Resolved), us.length = cs.length ∧ p.threads.length = cs.length ∧ ws.length = cs.length ∧
    HeldTo (base + ws.sum) us p.db ∧ ∀ (i : Nat) c, cs[i]? = some c → ws[i]? = some (cost env (callsBegun c.1 c.2 (got i))) ∧
      ∃ t u, p.threads[i]? = some t ∧ us[i]? = some u ∧ Sits env c.1 c.2 (got i) t u

private theorem Everyone.step {env : Env} {cs : List (Caller × Nat)} {base : Nat} {p : Pool (List Resolved)} (h : Everyone env cs base p) (i : Nat) :
    Everyone env cs base (p.stepAt i) := by
  obtain ⟨us, ws, got, h1, h2, h3, hw, hall⟩ := h
  cases hci : cs[i]? with
  | none =>
    have hlen : cs.length ≤ i := List.getElem?_eq_none_iff.mp hci
    have : p.stepAt i = p := by
      have hpi : p.threads[i]? = none := List.getElem?_eq_none_iff.mpr (by omega)
      simp only [Pool.stepAt, hpi]
    rw [this]
    exact ⟨us, ws, got, h1, h2, h3, hw, hall⟩
  | some c =>
    obtain ⟨hwi, t, u, ht, hu, hs⟩ := hall i c hci
    have hil : i < cs.length := (List.getElem?_eq_some_iff.mp hci).1
    rcases hs with ⟨rfl, ⟨o, rfl⟩, hend⟩ | ⟨a, g, hl, hca, hlead, hlive, hg, rfl⟩
    · have : p.stepAt i = p := by
        simp only [Pool.stepAt, ht, Prog.step]
        obtain ⟨h, e⟩ := List.getElem?_eq_some_iff.mp ht
        rw [← e, List.set_getElem_self]
      rw [this]
      exact ⟨us, ws, got, h1, h2, h3, hw, hall⟩
    · have hstep : ((u.andThen g).andThen fun o => Caller.prog env c.1 (c.2 - (got i).length - 1) (got i ++ [o])).step p.db =
          (((u.step p.db).1.andThen g).andThen fun o => Caller.prog env c.1 (c.2 - (got i).length - 1) (got i ++ [o]), (u.step p.db).2) ∧
          (u.andThen g).step p.db = ((u.step p.db).1.andThen g, (u.step p.db).2) := by
        cases u with
        | done o => exact absurd rfl (hlive o)
        | onKey k upd next => exact ⟨rfl, rfl⟩
        | onCtr m upd next => exact ⟨rfl, rfl⟩
      have hp : p.stepAt i = ⟨p.threads.set i (((u.step p.db).1.andThen g).andThen fun o => Caller.prog env c.1 (c.2 - (got i).length - 1) (got i ++ [o])),
          (u.step p.db).2⟩ := by
        simp only [Pool.stepAt, ht, hstep.1]
      have hq : (⟨us, p.db⟩ : Pool Bytes).stepAt i = ⟨us.set i (u.step p.db).1, (u.step p.db).2⟩ := by
        simp only [Pool.stepAt, hu]
      have hw' := HeldTo.step (p := ⟨us, p.db⟩) hw i
      rw [hq] at hw'
      dsimp only at hw'
      have hul : i < us.length := by omega
      have hpl : i < p.threads.length := by omega
      have hwl : i < ws.length := by omega
      rw [hp]
      -- what becomes of the others
      have fin : ∀ (got' : List Resolved) (u' : Prog Bytes) (t' : Prog (List Resolved)),
          HeldTo (base + (ws.set i (cost env (callsBegun c.1 c.2 got'))).sum) (us.set i u') (u.step p.db).2 → Sits env c.1 c.2 got' t' u' →
          Everyone env cs base ⟨p.threads.set i t', (u.step p.db).2⟩ := by
        intro got' u' t' hw'' hs'
        refine ⟨us.set i u', ws.set i (cost env (callsBegun c.1 c.2 got')), fun j => if j = i then got' else got j, by simpa using h1, by simpa using h2,
          by simpa using h3, hw'', fun j d hj => ?_⟩
        by_cases hij : i = j
        · subst hij
          rw [hci] at hj
          cases hj
          simp only [if_true]
          exact ⟨List.getElem?_set_self hwl, t', u', List.getElem?_set_self hpl, List.getElem?_set_self hul, hs'⟩
        · have hji : ¬ j = i := fun h => hij h.symm
          simp only [if_neg hji]
          rw [List.getElem?_set_ne hij, List.getElem?_set_ne hij, List.getElem?_set_ne hij]
          exact hall j d hj
      by_cases hd : ∃ o, (u.step p.db).1 = .done o
      · obtain ⟨o, ho⟩ := hd
        obtain ⟨x, hx⟩ := hg o
        have hi' : (us.set i (u.step p.db).1)[i]? = some (.done o) := by rw [List.getElem?_set_self hul, ho]
        have hs1 := sum_put hwi 0
        have hb : cost env (callsBegun c.1 c.2 (got i)) = cost env (madeBy c.1 (got i ++ [x]).length (got i ++ [x])) := by
          rw [List.length_append, List.length_singleton, madeBy_snoc _ x (Nat.le_refl _)]
          show cost env (madeBy c.1 (min c.2 ((got i).length + 1)) (got i)) = _
          rw [show min c.2 ((got i).length + 1) = (got i).length + 1 by omega]
        obtain ⟨got', u', h5, h6⟩ := enter (base := base + (ws.set i 0).sum) c.1 c.2 hi' (c.2 - (got i).length - 1) (got i ++ [x])
          (by simp; omega) (hw'.mono (by rw [← hb]; omega))
        rw [List.set_set] at h5
        have hs2 := sum_put hwi (cost env (callsBegun c.1 c.2 got'))
        have := fin got' u' _ (h5.mono (by omega)) h6
        rw [ho]
        show Everyone env cs base ⟨p.threads.set i ((g o).andThen _), _⟩
        rw [hx]
        exact this
      · refine fin (got i) (u.step p.db).1 _ (hw'.mono ?_) (.inr ⟨a, g, hl, hca, ?_, fun o ho => hd ⟨o, ho⟩, hg, rfl⟩)
        · have := sum_put hwi (cost env (callsBegun c.1 c.2 (got i)))
          omega
        · have := leads_step hlead p.db
          rw [hstep.2] at this
          exact this

private theorem everyone_start (env : Env) (cs : List (Caller × Nat)) (db : Db) {ks : List Bytes} (hn : ks.Nodup)
    (hk : ∀ k v, db.keys k = some v → k ∈ ks) : Everyone env cs (stored ks db.keys) (Callers.pool env cs db) := by
  have main : ∀ m, m ≤ cs.length → ∃ (us : List (Prog Bytes)) (ws : List Nat) (got : Nat → List Resolved), us.length = cs.length ∧ ws.length = cs.length ∧
      HeldTo (stored ks db.keys + ws.sum) us db ∧ ∀ (i : Nat) c, cs[i]? = some c →
        if i < m then ws[i]? = some (cost env (callsBegun c.1 c.2 (got i))) ∧ ∃ u, us[i]? = some u ∧ Sits env c.1 c.2 (got i) (Caller.prog env c.1 c.2 []) u
        else ws[i]? = some 0 ∧ us[i]? = some (.done .panic) := by
    intro m
    induction m with
    | zero =>
      intro _
      refine ⟨List.replicate cs.length (.done .panic), List.replicate cs.length 0, fun _ => [], by simp, by simp,
        (HeldTo.idle cs.length .panic db hn hk).mono (Nat.le_add_right _ _), fun i c hc => ?_⟩
      have hi : i < cs.length := (List.getElem?_eq_some_iff.mp hc).1
      simp [hi]
    | succ m ih =>
      intro hm
      obtain ⟨us, ws, got, h1, h2, hw, hall⟩ := ih (by omega)
      obtain ⟨c, hc⟩ : ∃ c, cs[m]? = some c := ⟨cs[m], List.getElem?_eq_getElem _⟩
      have h0 := hall m c hc
      rw [if_neg (Nat.lt_irrefl m)] at h0
      obtain ⟨hwm, hum⟩ := h0
      obtain ⟨got', u, h3, h4⟩ := enter (env := env) (base := stored ks db.keys + ws.sum) c.1 c.2 hum c.2 [] (by simp) hw
      have hs := sum_put hwm (cost env (callsBegun c.1 c.2 got'))
      refine ⟨us.set m u, ws.set m (cost env (callsBegun c.1 c.2 got')), fun j => if j = m then got' else got j, by simpa using h1, by simpa using h2,
        h3.mono (by omega), fun i d hd => ?_⟩
      by_cases him : m = i
      · subst him
        rw [hc] at hd
        cases hd
        rw [if_pos (Nat.lt_succ_self m)]
        simp only [if_true]
        exact ⟨List.getElem?_set_self (by omega), u, List.getElem?_set_self (by omega), h4⟩
      · have := hall i d hd
        rw [List.getElem?_set_ne him, List.getElem?_set_ne him]
        have hne : ¬ i = m := fun h => him h.symm
        simp only [if_neg hne]
        by_cases hlt : i < m
        · rw [if_pos hlt] at this
          rw [if_pos (by omega)]
          exact this
        · rw [if_neg hlt] at this
          rw [if_neg (by omega)]
          exact this
  obtain ⟨us, ws, got, h1, h2, hw, hall⟩ := main cs.length (Nat.le_refl _)
  refine ⟨us, ws, got, h1, by simp [Callers.pool], h2, hw, fun i c hc => ?_⟩
  have := hall i c hc
  rw [if_pos (List.getElem?_eq_some_iff.mp hc).1] at this
  obtain ⟨h3, u, h4, h5⟩ := this
  exact ⟨h3, _, u, by simp only [Callers.pool, List.getElem?_map, hc, Option.map_some], h4, h5⟩

/-- **C216, tasks.** Any number of tasks share an in-memory client and make any calls, each depending on what the task's calls before came to; they take turns
between the atomic operations in any way whatever. At every moment there is at most as much stored as at the beginning, and the bytes handed over by
the calls that have been made or begun. -/
theorem C216_tasks (env : Env) (cs : List (Caller × Nat)) (db : Db) (sched : List Nat) (ks : List Bytes) (hn : ks.Nodup)
    (hk : ∀ k v, db.keys k = some v → k ∈ ks) :
    ∃ got : Nat → List Resolved,
      (∀ (i : Nat) c t, cs[i]? = some c → ((Callers.pool env cs db).exec sched).threads[i]? = some t → c.1.Amid env c.2 (got i) t) ∧
      stored ks ((Callers.pool env cs db).exec sched).db.keys ≤ stored ks db.keys +
        (cs.zipIdx.map fun e => ((callsBegun e.1.1 e.1.2 (got e.2)).map fun a => handedOver (a.call env)).sum).sum := by
  have main : ∀ (sched : List Nat) (p : Pool (List Resolved)), Everyone env cs (stored ks db.keys) p → Everyone env cs (stored ks db.keys) (p.exec sched) := by
    intro sched
    induction sched with
    | nil => exact fun p h => h
    | cons i sched ih => exact fun p h => ih _ (h.step i)
  obtain ⟨us, ws, got, -, -, h3, hw, hall⟩ := main sched _ (everyone_start env cs db hn hk)
  refine ⟨got, fun i c t hc ht => ?_, ?_⟩
  · obtain ⟨-, t', u, h4, -, h5⟩ := hall i c hc
    rw [ht] at h4
    cases h4
    exact h5.amid
  · refine Nat.le_trans (hw.stored hn) (Nat.le_of_eq ?_)
    congr 2
    refine List.ext_getElem? fun i => ?_
    rw [List.getElem?_map, List.getElem?_zipIdx]
    cases hc : cs[i]? with
    | none =>
      have : cs.length ≤ i := List.getElem?_eq_none_iff.mp hc
      exact List.getElem?_eq_none_iff.mpr (by omega)
    | some c =>
      rw [(hall i c hc).1]
      simp [cost]

/-- Two tasks at the same time, after both calls. -/
example (m : Mode) :
    let p := (Callers.pool (sampleEnv m) [(fun past => if past = [] then some (.increment [1] none) else none, 2),
      (fun past => if past = [] then some (.append [2] (.bytes [1, 2, 3])) else none, 2)] (sampleDb [])).exec (List.replicate 20 [0, 1]).flatten
    stored [[1], [2]] p.db.keys = 18 ∧
    handedOver ((Api.increment [1] none).call (sampleEnv m)) + handedOver ((Api.append [2] (.bytes [1, 2, 3])).call (sampleEnv m)) = 26 := by
  cases m <;> decide +kernel

/-! ## C217 -/

private theorem strBytes_cat (s t : Text) : strBytes (s ++ t) = strBytes s ++ strBytes t := by
  simp [strBytes]

private theorem spaced_length (y : Text) (words : List Text) :
    (strBytes ((y :: words).flatMap (' ' :: ·))).length = (strBytes y).length + 1 + (strBytes (words.flatMap (' ' :: ·))).length := by
  rw [List.flatMap_cons, strBytes_cat, List.length_append, show ' ' :: y = [' '] ++ y from rfl, strBytes_cat, List.length_append]
  have : (strBytes [' ']).length = 1 := by decide +kernel
  omega

/-- The keys that a line names, where it may change anything, fit into it. -/
private theorem parse_fits {m : Mode} {std : Std} {line : Text} {r : Request} (h : Cli.parse m std line = .ok r) :
    (r.commandId = .increment ∨ r.commandId = .decrement ∨ r.commandId = .delete → ∀ k, r.arg 0 = some k → k.length + 7 ≤ (strBytes line).length) ∧
    (r.commandId = .rename → ∀ a b, r.arg 0 = some a → r.arg 1 = some b → a.length + b.length + 8 ≤ (strBytes line).length) := by
  obtain ⟨w, words, hsp, hline, -, -⟩ := splitOn_inv line
  unfold Cli.parse at h
  rw [hsp] at h
  cases w with
  | nil => cases h
  | cons x w =>
    dsimp only at h
    cases hc : Cli.command (x :: w) with
    | none => rw [hc] at h; cases h
    | some p =>
      obtain ⟨c, kt⟩ := p
      have hlen : (strBytes line).length ≥ (strBytes c.name.toList).length + (strBytes (words.flatMap (' ' :: ·))).length := by
        rw [hline, lineOf, strBytes_cat, List.length_append]
        rcases (command_iff (x :: w) c (kt.getD .bytes)).mp ⟨kt, hc, rfl⟩ with ⟨h, -⟩ | ⟨y, -, h⟩
        · rw [h]; exact Nat.le_refl _
        · rw [h, strBytes_cat, List.length_append]; omega
      rw [hc] at h
      dsimp only at h
      cases words with
      | nil =>
        cases h
        exact ⟨fun _ k hk => by simp [Request.arg, Builder.intoRequest, Builder.newWithKeyType] at hk,
          fun _ k _ hk => by simp [Request.arg, Builder.intoRequest, Builder.newWithKeyType] at hk⟩
      | cons y words =>
        dsimp only at h
        split at h
        · cases h
        · rename_i args ha
          split at h
          · rename_i b hb
            cases h
            obtain ⟨h1, h2, h3⟩ := bytesAll_keeps hb
            have h1 : b.intoRequest.commandId = c := h1
            rw [h1]
            unfold Cli.inputArgs at ha
            rw [spaced_length] at hlen
            constructor
            · intro hn k hk
              have hcs : c ≠ .stats := by rintro rfl; simp at hn
              have hone : c.keyNotation = .one := by rcases hn with rfl | rfl | rfl <;> rfl
              have hname : 6 ≤ (strBytes c.name.toList).length := by rcases hn with rfl | rfl | rfl <;> decide +kernel
              rw [(built_views hcs hb).arg 0] at hk
              rw [hone] at ha
              dsimp only at ha
              cases hv : Cli.values std (kt.getD .bytes) words with
              | error e => rw [hv] at ha; cases ha
              | ok vs =>
                rw [hv] at ha
                cases ha
                cases hk
                omega
            · rintro rfl k d hk hd
              have hname : 6 ≤ (strBytes (CommandId.name .rename).toList).length := by decide +kernel
              rw [(built_views (by nofun) hb).arg 0] at hk
              rw [(built_views (by nofun) hb).arg 1] at hd
              cases words with
              | nil => cases ha
              | cons z words =>
                rw [spaced_length] at hlen
                dsimp only [CommandId.keyNotation] at ha
                cases hv : Cli.values std (kt.getD .bytes) words with
                | error e => rw [hv] at ha; cases ha
                | ok vs =>
                  rw [hv] at ha
                  cases ha
                  cases hk
                  cases hd
                  omega
          all_goals cases h

/-- The program does to the database what nothing, or a call that hands over at most so many bytes, does to it. -/
private def Costs {α} (env : Env) (n : Nat) (p : Prog α) : Prop :=
  ∀ db, (p.run db).2 = db ∨ ∃ a : Api, handedOver (a.call env) ≤ n ∧ (p.run db).2 = ((a.start env).run db).2

private theorem Costs.andThen {α β} {env : Env} {n : Nat} {p : Prog α} (h : Costs env n p) {f : Outcome DispatchError α → Prog β}
    (hf : ∀ o, ∃ x, f o = .done x) : Costs env n (p.andThen f) := by
  intro db
  have : ((p.andThen f).run db).2 = (p.run db).2 := by
    rw [run_andThen]
    obtain ⟨x, hx⟩ := hf (p.run db).1
    rw [hx]; rfl
  rw [this]
  exact h db

private theorem Costs.done {α} {env : Env} {n : Nat} (o : Outcome DispatchError α) : Costs env n (.done o) := fun _ => .inl rfl

private theorem Costs.awaiting {α} {env : Env} {n : Nat} (a : Api) (F : α → Got) (p : Client.Job α) (f : α → Option Text) (hs : a.start env = wrap F p)
    (h : handedOver (a.call env) ≤ n) : Costs env n (Cli.awaiting p f) := by
  refine Costs.andThen (fun db => .inr ⟨a, h, ?_⟩) fun o => ?_
  · rw [hs, wrap, Client.bind, run_andThen]
    rcases (p.run db).1 with (_ | x) | _ | _ | _ <;> rfl
  · rcases o with (_ | x) | _ | _ | _
    · exact ⟨_, rfl⟩
    · dsimp only; cases f x <;> exact ⟨_, rfl⟩
    all_goals exact ⟨_, rfl⟩

private theorem Costs.needing {α} {env : Env} {n : Nat} {o : Option α} {e : Cli.Fault} {f : α → Cli.Job} (h : ∀ a, o = some a → Costs env n (f a)) :
    Costs env n (Cli.needing o e f) := by
  cases o with
  | none => exact Costs.done _
  | some a => exact h a rfl

private theorem process_costs (env : Env) (std : Std) (line : Text) : Costs env ((strBytes line).length + 4) (Cli.process env std line) := by
  unfold Cli.process
  split
  · rename_i r hr
    refine Costs.andThen ?_ fun o => by rcases o with (_ | _) | _ | _ | _ <;> exact ⟨_, rfl⟩
    obtain ⟨h0, h1⟩ := parse_fits hr
    unfold Cli.processInner
    have key : ∀ k, r.key = some k → r.arg 0 = some k := fun k hk => Request.key_arg hk
    cases hc : r.commandId <;> dsimp only
    case decrement =>
      refine Costs.needing fun k hk => Costs.awaiting (.decrement k none) .value _ _ rfl ?_
      have := h0 (by rw [hc]; simp) _ (key _ hk)
      simp [handedOver, Api.call, looking]; omega
    case increment =>
      refine Costs.needing fun k hk => Costs.awaiting (.increment k none) .value _ _ rfl ?_
      have := h0 (by rw [hc]; simp) _ (key _ hk)
      simp [handedOver, Api.call, looking]; omega
    case delete =>
      refine Costs.needing fun k hk => Costs.awaiting (.delete k) .bytes _ _ rfl ?_
      have := h0 (by rw [hc]; simp) _ (key _ hk)
      simp [handedOver, Api.call, looking]; omega
    case rename =>
      refine Costs.needing fun k hk => Costs.needing fun d hd => Costs.awaiting (.rename k d) .bytes _ _ rfl ?_
      have := h1 hc _ _ (key _ hk) hd
      simp [handedOver, Api.call, looking]; omega
    case get => exact Costs.needing fun k _ => Costs.awaiting (.get k) .value _ _ rfl (Nat.zero_le _)
    case keys => exact Costs.needing fun k _ => Costs.awaiting (.keys k) .list _ _ rfl (Nat.zero_le _)
    case type => exact Costs.needing fun k _ => Costs.awaiting (.keyType k) .kind _ _ rfl (Nat.zero_le _)
    case stats => exact Costs.awaiting .stats .stats _ _ rfl (Nat.zero_le _)
    case echo =>
      split
      · exact Costs.awaiting (.echo _) .list _ _ rfl (Nat.zero_le _)
      · exact Costs.done _
    case «exists» =>
      refine Costs.needing fun ks _ => ?_
      split
      · exact Costs.awaiting (.exists _) .bool _ _ rfl (Nat.zero_le _)
      all_goals exact Costs.done _
    case is =>
      refine Costs.needing fun t _ => Costs.needing fun ks _ => ?_
      split
      · exact Costs.awaiting (.is t _) .bool _ _ rfl (Nat.zero_le _)
      all_goals exact Costs.done _
    all_goals exact Costs.done _
  all_goals exact Costs.done _

private theorem trimmed_length (s : Text) : (strBytes (Cli.trimEnd s)).length ≤ (strBytes s).length := by
  have : s = Cli.trimEnd s ++ (s.reverse.takeWhile Cli.isSpace).reverse := by
    unfold Cli.trimEnd
    rw [← List.reverse_append, List.takeWhile_append_dropWhile, List.reverse_reverse]
  conv => rhs; rw [this, strBytes_cat, List.length_append]
  omega

private theorem calls_join (env : Env) (l l' : List Api) (db : Db) : (callAll env (l ++ l') db).2 = (callAll env l' (callAll env l db).2).2 := by
  induction l generalizing db with
  | nil => rfl
  | cons a l ih => exact ih _

private theorem session_calls (env : Env) (std : Std) (lines : List Text) (db : Db) :
    ∃ l : List Api, (l.map fun a => handedOver (a.call env)).sum ≤ (lines.map fun x => (strBytes x).length + 4).sum ∧
      (Cli.session env std lines db).2.2 = (callAll env l db).2 := by
  induction lines generalizing db with
  | nil => exact ⟨[], Nat.le_refl _, rfl⟩
  | cons line lines ih =>
    have ht := trimmed_length line
    have : ∃ l : List Api, (l.map fun a => handedOver (a.call env)).sum ≤ (strBytes line).length + 4 ∧
        ((Cli.process env std (Cli.trimEnd line)).run db).2 = (callAll env l db).2 := by
      rcases process_costs env std (Cli.trimEnd line) db with h | ⟨a, ha, h⟩
      · exact ⟨[], Nat.zero_le _, h⟩
      · exact ⟨[a], by simp only [List.map_cons, List.map_nil, List.sum_cons, List.sum_nil]; omega, h⟩
    obtain ⟨l, h1, h2⟩ := this
    unfold Cli.session
    split <;> rename_i hr <;> rw [hr] at h2 <;> dsimp only at h2 ⊢
    · obtain ⟨l', h3, h4⟩ := ih (callAll env l db).2
      refine ⟨l ++ l', ?_, ?_⟩
      · simp only [List.map_append, List.sum_append, List.map_cons, List.sum_cons]; omega
      · rw [h2, h4, calls_join]
    all_goals exact ⟨l, by simp only [List.map_cons, List.sum_cons]; omega, h2⟩

/-- **C217.** Whatever lines are typed into the CLI, understood or not: when the session has ended there is at most as much stored as at the beginning, and the
bytes of the lines, and four for each. -/
theorem C217_session (env : Env) (std : Std) (lines : List Text) (db : Db) (ks : List Bytes) (hn : ks.Nodup)
    (hk : ∀ k v, db.keys k = some v → k ∈ ks) :
    stored ks (Cli.session env std lines db).2.2.keys ≤ stored ks db.keys + (lines.map fun l => (strBytes l).length + 4).sum := by
  obtain ⟨l, h1, h2⟩ := session_calls env std lines db
  rw [h2]
  exact Nat.le_trans (C216_calls env l db ks hn hk) (Nat.add_le_add_left h1 _)

/-- Two keys, one of them under a new name, and a line that ends the session. -/
example (m : Mode) : stored [ascii "a", ascii "b", ascii "cc"] (Cli.session (sampleEnv m) plainStd
      ["increment a".toList, "decrement:float b ".toList, "rename a cc".toList, "what".toList, "increment z".toList] (sampleDb [])).2.2.keys = 19 ∧
    ((["increment a".toList, "decrement:float b ".toList, "rename a cc".toList, "what".toList, "increment z".toList] : List Text).map
      fun l => (strBytes l).length + 4).sum = 75 := by
  cases m <;> decide +kernel

end Hop
