import Verif.Props.Cli
import Verif.Props.ClientSet

/-! # What the command line interface does and prints -/

namespace Hop

open Spec Prog
open Hop.Cli (Text Std ParseError)

/-! ## C46, C70 Printing lists and maps -/

theorem strBytes_cons (c : Char) (s : Text) : strBytes (c :: s) = String.utf8EncodeChar c ++ strBytes s := rfl

theorem cut_full (a b : Text) : Cli.cut (a ++ b) (strBytes a).length = some a := by
  induction a with
  | nil => cases b <;> rfl
  | cons c a ih =>
    have hs := Char.utf8Size_pos c
    rw [strBytes_cons, List.length_append, String.length_utf8EncodeChar, List.cons_append]
    obtain ⟨n, hn⟩ : ∃ n, c.utf8Size + (strBytes a).length = n + 1 := ⟨c.utf8Size + (strBytes a).length - 1, by omega⟩
    rw [hn]
    simp only [Cli.cut]
    rw [if_pos (by omega), show n + 1 - c.utf8Size = (strBytes a).length by omega, ih]
    rfl

theorem cut_inside (a : Text) (c : Char) (b : Text) (k : Nat) (hk : 0 < k) (hc : k < c.utf8Size) :
    Cli.cut (a ++ c :: b) ((strBytes a).length + k) = none := by
  induction a with
  | nil =>
    obtain ⟨n, rfl⟩ : ∃ n, k = n + 1 := ⟨k - 1, by omega⟩
    simp only [strBytes, List.flatMap_nil, List.length_nil, Nat.zero_add, List.nil_append, Cli.cut]
    rw [if_neg (by omega)]
  | cons d a ih =>
    have hs := Char.utf8Size_pos d
    rw [strBytes_cons, List.length_append, String.length_utf8EncodeChar, List.cons_append]
    obtain ⟨n, hn⟩ : ∃ n, d.utf8Size + (strBytes a).length + k = n + 1 :=
      ⟨d.utf8Size + (strBytes a).length + k - 1, by omega⟩
    rw [hn]
    simp only [Cli.cut]
    rw [if_pos (by omega), show n + 1 - d.utf8Size = (strBytes a).length + k by omega, ih]
    rfl

theorem ascii_iff (c : Char) : c.utf8Size = 1 ↔ c.toNat < 128 := by
  rw [Char.utf8Size_eq_one_iff]
  change c.val.toNat ≤ 127 ↔ c.val.toNat < 128
  omega

/-- Text that consists of lines. -/
def Lines (s : Text) : Prop := s = [] ∨ ∃ x, s = x ++ ['\n']

theorem truncate_chopped (m : Mode) (s : Text) (h : Lines s) : Cli.truncate2 m s = chopped m s := by
  rcases h with rfl | ⟨x, rfl⟩
  · rfl
  · rcases List.eq_nil_or_concat x with rfl | ⟨y, c, rfl⟩
    · rfl
    · have hs := Char.utf8Size_pos c
      have hn : '\n'.utf8Size = 1 := by decide
      have hl : (strBytes (y ++ [c] ++ ['\n'])).length = (strBytes y).length + c.utf8Size + 1 := by
        rw [strBytes_append, strBytes_append, List.length_append, List.length_append]
        simp only [strBytes, List.flatMap_cons, List.flatMap_nil, List.append_nil, String.length_utf8EncodeChar, hn]
      simp only [List.concat_eq_append]
      unfold Cli.truncate2 chopped
      rw [hl, if_neg (by omega)]
      simp only [List.reverse_append, List.reverse_cons, List.reverse_nil, List.nil_append, List.singleton_append,
        List.reverse_reverse]
      by_cases hc : c.toNat < 128
      · rw [if_pos hc, List.append_assoc]
        have := (ascii_iff c).mpr hc
        rw [show (strBytes y).length + c.utf8Size + 1 - 2 = (strBytes y).length by omega]
        exact cut_full y _
      · rw [if_neg hc, List.append_assoc]
        have : c.utf8Size ≠ 1 := fun h => hc ((ascii_iff c).mp h)
        rw [show (strBytes y).length + c.utf8Size + 1 - 2 = (strBytes y).length + (c.utf8Size - 1) by omega]
        exact cut_inside y c _ _ (by omega) (by omega)

theorem flatMap_lines {α} (l : List α) (f : α → Text) : Lines (l.flatMap fun x => f x ++ ['\n']) := by
  rcases List.eq_nil_or_concat l with rfl | ⟨y, c, rfl⟩
  · exact .inl rfl
  · right
    exact ⟨(y.flatMap fun x => f x ++ ['\n']) ++ f c, by simp⟩

/-- C46 in full: a list is printed without a panic, and every item is part of the output. -/
def C46_Statement : Prop :=
  ∀ (m : Mode) (std : Std) (items : List Bytes),
    ∃ s, Cli.list m std items = some s ∧ ∀ i ∈ items, std.lossy i <:+: s

/-- C70. A list is printed as its items, each followed by a line break, where at the end the last line break
and the character before it are missing; printing panics if that character is not ASCII, and in debug builds
if the list is empty or its only item prints as nothing. -/
theorem C70_list (m : Mode) (std : Std) (items : List Bytes) :
    Cli.list m std items = chopped m (items.flatMap fun i => std.lossy i ++ ['\n']) :=
  truncate_chopped m _ (flatMap_lines _ _)

/-- C70. Likewise for maps, whose entries are printed as `key=value`. -/
theorem C70_map (m : Mode) (std : Std) (pairs : BMap) :
    Cli.map m std pairs = chopped m (pairs.flatMap fun e => std.lossy e.1 ++ '=' :: (std.lossy e.2 ++ ['\n'])) := by
  have h : (pairs.flatMap fun e => std.lossy e.1 ++ ['='] ++ std.lossy e.2 ++ ['\n']) =
      pairs.flatMap fun e => std.lossy e.1 ++ '=' :: (std.lossy e.2 ++ ['\n']) := by simp
  unfold Cli.map
  rw [truncate_chopped m _ (flatMap_lines _ _), h]

/-- C46, what holds of lists: all items but the last are printed in full, and of the last everything but its
last character, if that is ASCII. Missing: the last character (see `C46_false`), non-ASCII last characters
and lists without an item that has one (`C46_panics`). -/
theorem C46_list_partial (m : Mode) (std : Std) (items : List Bytes) (last : Bytes) (x : Text) (c : Char)
    (hl : std.lossy last = x ++ [c]) (hc : c.toNat < 128) :
    Cli.list m std (items ++ [last]) = some ((items.flatMap fun i => std.lossy i ++ ['\n']) ++ x) := by
  rw [C70_list]
  simp [chopped, hl, hc]

/-- C46, what holds of maps. -/
theorem C46_map_partial (m : Mode) (std : Std) (pairs : BMap) (k v : Bytes) (x : Text) (c : Char)
    (hl : std.lossy v = x ++ [c]) (hc : c.toNat < 128) :
    Cli.map m std (pairs ++ [(k, v)]) = some ((pairs.flatMap fun e => std.lossy e.1 ++ '=' :: (std.lossy e.2 ++ ['\n'])) ++
      (std.lossy k ++ '=' :: x)) := by
  rw [C70_map]
  simp [chopped, hl, hc]

/-- C46. Printing panics if the last item ends in a character that is not ASCII, in debug builds also if there
is nothing to print. -/
theorem C46_panics (m : Mode) (std : Std) (items : List Bytes) (last : Bytes) (x : Text) (c : Char)
    (hl : std.lossy last = x ++ [c]) (hc : 128 ≤ c.toNat) :
    Cli.list m std (items ++ [last]) = none ∧ Cli.list .debug std [] = none ∧ Cli.map .debug std [] = none := by
  refine ⟨?_, rfl, rfl⟩
  rw [C70_list]
  simp [chopped, hl, hc]

/-- C46 is false as stated: the list with the one item `ab` is printed as `a`. -/
theorem C46_false : ¬ C46_Statement := by
  intro h
  obtain ⟨s, hs, hi⟩ := h .release plainStd [strBytes "ab".toList]
  have h1 := C46_list_partial .release plainStd [] (strBytes "ab".toList) ['a'] 'b'
    (plainStd.lossy_text "ab".toList) (by decide)
  simp only [List.nil_append] at h1
  rw [h1] at hs
  cases hs
  have := (hi (strBytes "ab".toList) (List.mem_singleton.mpr rfl)).length_le
  rw [plainStd.lossy_text] at this
  simp at this

example : Cli.list .release plainStd [[97, 98], [99, 100]] = some "ab\nc".toList := by decide +kernel
example : Cli.map .release plainStd [([97], [98]), ([99], [0xC3, 0xA9])] = none := by decide +kernel

/-! ## C71 Integers are printed so that they can be read back -/

theorem digitChar_eq (d : Nat) (h : d < 10) : Nat.digitChar d = Char.ofNat (48 + d) := by
  match d, h with
  | 0, _ | 1, _ | 2, _ | 3, _ | 4, _ | 5, _ | 6, _ | 7, _ | 8, _ | 9, _ => decide

theorem showNat_eq (n : Nat) : Cli.showNat n = Nat.toDigits 10 n := by
  induction n using Nat.strongRecOn with
  | ind n ih =>
    unfold Cli.showNat
    by_cases h : n < 10
    · rw [if_pos h, Nat.toDigits_of_lt_base h, digitChar_eq n h]
    · rw [if_neg h, ih (n / 10) (by omega), Nat.toDigits_of_base_le (b := 10) (n := n) (by omega) (by omega),
        digitChar_eq _ (Nat.mod_lt _ (by omega))]

theorem decimal_eq (n : Int) : decimal n = if n < 0 then '-' :: Nat.toDigits 10 n.natAbs else Nat.toDigits 10 n.natAbs := by
  unfold decimal
  rw [Int.toString_eq_repr, Int.repr_eq_if]
  by_cases h : 0 ≤ n
  · rw [if_pos h, if_neg (by omega), Nat.toList_repr]
    congr 1
    omega
  · rw [if_neg h, if_pos (by omega), String.toList_append, Nat.toList_repr]
    rw [show (-n).toNat = n.natAbs by omega]
    rfl

theorem showInt_eq (i : Int64) : Cli.showInt i = decimal i.toInt := by
  rw [decimal_eq, Cli.showInt]
  simp only [showNat_eq]

/-- C71. An integer is printed in decimal (no leading zeros, a minus sign if negative), and reading the printed
text as an argument gives the same integer. -/
theorem C71_integers (env : Env) (std : Std) (i : Int64) :
    ∃ s, Cli.value env std (.integer i) = some s ∧ s = decimal i.toInt ∧ Cli.parseInt s = some i := by
  refine ⟨_, rfl, showInt_eq i, ?_⟩
  rw [showInt_eq, parseInt_iff]
  refine ⟨i.toInt, ?_, ⟨Int64.le_toInt i, Int64.toInt_lt i⟩, by simp⟩
  rw [decimal_eq]
  refine ⟨Nat.toDigits 10 i.toInt.natAbs, Nat.toDigits_ne_nil,
    fun c hc => Nat.isDigit_of_mem_toDigits (by decide) (by decide) hc, ?_⟩
  rw [Nat.ofDigitChars_ten_toDigits]
  by_cases h : i.toInt < 0
  · rw [if_pos h]; right; exact ⟨rfl, by omega⟩
  · rw [if_neg h]; left; exact ⟨.inl rfl, by omega⟩

example : Cli.value (sampleEnv .debug) plainStd (.integer (-120)) = some "-120".toList := by decide +kernel

/-! ## C72 A line is the client call it spells -/

theorem joinWith_eq (sep : Char) (l : List Text) : Cli.joinWith sep l = separated sep l := by
  induction l with
  | nil => rfl
  | cons x l ih =>
    cases l with
    | nil => simp [Cli.joinWith, separated]
    | cons y l =>
      simp only [Cli.joinWith, ih, separated]
      rw [show (x :: y :: l).flatMap (· ++ [sep]) = (x ++ [sep]) ++ (y :: l).flatMap (· ++ [sep]) by simp]
      rw [List.dropLast_append_of_ne_nil (by simp)]
      simp

theorem joinWith_spaced (l : List Bytes) : Cli.joinWith 32 l = spaced l := by
  induction l with
  | nil => rfl
  | cons x l ih =>
    cases l with
    | nil => simp [Cli.joinWith, spaced]
    | cons y l =>
      simp only [Cli.joinWith, ih, spaced]
      simp

theorem value_written (env : Env) (std : Std) (a : Api) (v : Value) :
    Cli.value env std v = written env std a (.value v) := by
  cases v with
  | boolean b => rfl
  | bytes b => rfl
  | float f => rfl
  | integer i => exact congrArg some (showInt_eq i)
  | list l => exact C70_list _ _ _
  | map l => exact C70_map _ _ _
  | set l => exact C70_list _ _ _
  | string s => rfl

theorem fault_complaint (e : Client.Error) : (Cli.fault e).message = (complaint e).toList := by
  cases e with
  | runningCommand d => cases d <;> rfl
  | _ => rfl

/-- What `process` does with the outcome of the inner program. -/
def finished : Outcome DispatchError (Except Cli.Fault Text) → Prog (Except ParseError Text)
  | .ok (.ok s) => .done (.ok (.ok s))
  | .ok (.error f) => .done (.ok (.ok f.message))
  | .err e => .done (.err e)
  | .panic => .done .panic
  | .stuck => .done .stuck

theorem awaiting_start {α} (env : Env) (std : Std) (a : Api) (F : α → Got) (p : Client.Job α) (f : α → Option Text)
    (hs : a.start env = wrap F p) (hf : ∀ x, f x = written env std a (F x)) :
    (Cli.awaiting p f).andThen finished = (a.start env).andThen fun o => .done (reply env std a o) := by
  rw [hs]
  unfold Cli.awaiting wrap Client.bind
  rw [andThen_andThen, andThen_andThen]
  congr 1
  funext o
  rcases o with (e | x) | e | _ | _
  · simp only [Client.throw, andThen, Cli.fail, finished, reply, fault_complaint]
  · simp only [Client.ret, andThen, reply, hf]
    cases written env std a (F x) <;> rfl
  all_goals rfl

theorem process_eq (env : Env) (std : Std) (line : Text) (r : Request) (h : Cli.parse env.mode std line = .ok r) :
    Cli.process env std line = (Cli.processInner env std r).andThen finished := by
  unfold Cli.process
  rw [h]
  simp only
  congr 1

theorem stats_written (m : BMap) :
    some ("Commands successful: ".toList ++ Cli.showInt (Client.statsInt m .commandsSuccessful) ++ ['\n'] ++
        "Commands errored: ".toList ++ Cli.showInt (Client.statsInt m .commandsErrored) ++ ['\n'] ++
        "Sessions started: ".toList ++ Cli.showInt (Client.statsInt m .sessionsStarted) ++ ['\n'] ++
        "Sessions ended: ".toList ++ Cli.showInt (Client.statsInt m .sessionsEnded)) =
      written env std a (.stats m) := by
  have : ∀ (x : Metric), Cli.showInt (Client.statsInt m x) = decimal (match List.lookup (ascii x.name) m with
      | some b => if b.length = 8 then (i64OfBytes b).toInt else 0
      | none => 0) := by
    intro x
    rw [showInt_eq, Client.statsInt]
    cases List.lookup (ascii x.name) m with
    | none => rfl
    | some b =>
      by_cases hb : b.length = 8
      · simp only [if_pos hb]
      · simp only [if_neg hb]; rfl
  simp only [this, written, statLine, Metric.name, List.append_assoc, List.cons_append, List.nil_append]
  rfl

/-- What a line does, by what it asks for. -/
def doing (env : Env) (std : Std) : Meaning → Prog (Except ParseError Text)
  | .call a => (a.start env).andThen fun o => .done (reply env std a o)
  | .message s => .done (.ok (.ok s.toList))
  | .blank => .done (.ok (.ok []))
  | .unsupported => .done .panic

theorem keyed {r : Request} {c : CommandId} {t : KeyType} {args : List Bytes} (h : Views r c (some t) args)
    (hk : c.keyNotation ≠ .none) : r.key = args.head? := by
  rw [Request.key, h.command, if_neg hk, h.arg 0, List.head?_eq_getElem?]

theorem checkKeys_ok {ks : List Bytes} (h : ks ≠ []) (hn : ks.length ≤ 255) : Client.checkKeys ks = .ok ks := by
  unfold Client.checkKeys
  rw [if_neg h, if_neg (by omega)]

theorem processInner_views (env : Env) (std : Std) {r : Request} {c : CommandId} {t : KeyType} {args : List Bytes}
    (h : Views r c (some t) args) (hn : args.length ≤ 255) :
    (Cli.processInner env std r).andThen finished = doing env std (meaning c t args) := by
  have hargs := argsFrom_eq h 0
  have hkey : c.keyNotation ≠ .none → r.key = args.head? := keyed h
  unfold Cli.processInner
  rw [h.command]
  cases c
  case append => cases args <;> rfl
  case decrementBy => cases args <;> rfl
  case incrementBy => cases args <;> rfl
  case length => cases args <;> rfl
  case set => cases args <;> rfl
  case decrement =>
    simp only [hkey (by decide)]
    cases args with
    | nil => rfl
    | cons k l => exact awaiting_start env std (.decrement k none) .value _ _ rfl (fun x => value_written env std _ x)
  case increment =>
    simp only [hkey (by decide)]
    cases args with
    | nil => rfl
    | cons k l => exact awaiting_start env std (.increment k none) .value _ _ rfl (fun x => value_written env std _ x)
  case get =>
    simp only [hkey (by decide)]
    cases args with
    | nil => rfl
    | cons k l => exact awaiting_start env std (.get k) .value _ _ rfl (fun x => value_written env std _ x)
  case delete =>
    simp only [hkey (by decide)]
    cases args with
    | nil => rfl
    | cons k l => exact awaiting_start env std (.delete k) .bytes _ _ rfl (fun x => rfl)
  case type =>
    simp only [hkey (by decide)]
    cases args with
    | nil => rfl
    | cons k l => exact awaiting_start env std (.keyType k) .kind _ _ rfl (fun x => by cases x <;> rfl)
  case keys =>
    simp only [hkey (by decide)]
    cases args with
    | nil => rfl
    | cons k l =>
      exact awaiting_start env std (.keys k) .list _ _ rfl (fun x => congrArg some (joinWith_eq '\n' _))
  case rename =>
    simp only [hkey (by decide), h.arg]
    match args with
    | [] => rfl
    | [_] => rfl
    | a :: b :: l => exact awaiting_start env std (.rename a b) .bytes _ _ rfl (fun x => rfl)
  case stats => exact awaiting_start env std .stats .stats _ _ rfl (fun x => stats_written x)
  case echo =>
    simp only [hargs]
    cases args with
    | nil => rfl
    | cons k l =>
      rw [if_neg (by simp)]
      simp only [List.drop_zero, joinWith_spaced]
      exact awaiting_start env std (.echo (spaced (k :: l))) .list _ _ rfl (fun x => congrArg some (joinWith_eq ' ' _))
  case «exists» =>
    simp only [hargs]
    cases args with
    | nil => rfl
    | cons k l =>
      rw [if_neg (by simp)]
      simp only [List.drop_zero, Cli.needing, checkKeys_ok (ks := k :: l) (by simp) hn]
      exact awaiting_start env std (.exists (k :: l)) .bool _ _ rfl (fun x => rfl)
  case is =>
    simp only [hargs, h.keyType]
    cases args with
    | nil => rfl
    | cons k l =>
      rw [if_neg (by simp)]
      simp only [List.drop_zero, Cli.needing, checkKeys_ok (ks := k :: l) (by simp) hn]
      exact awaiting_start env std (.is t (k :: l)) .bool _ _ rfl (fun x => rfl)

/-- C72. A line that spells a command with at most 255 arguments does exactly what the client call it stands
for does (the type named in the line matters for `is` only), step by step, and prints the call's result, or a
message for its error; `append`, `set`, `length`, `increment:by` and `decrement:by` panic without doing
anything. -/
theorem C72_line (env : Env) (std : Std) (c : CommandId) (t : KeyType) (w : Text) (words : List Text)
    (args : List Bytes) (hh : Head c t w) (hw : ∀ x ∈ words, x ≠ [] ∧ ' ' ∉ x) (ha : Arguments std c t words args)
    (hn : args.length ≤ 255) :
    Cli.process env std (lineOf w words) = doing env std (meaning c t args) := by
  by_cases hs : c = .stats
  · subst hs
    have hne := arguments_ne_nil ha (fun x hx => (hw x hx).1)
    have hp := parse_arguments env.mode std hh (fun x hx => (hw x hx).2) ha
    obtain ⟨h1, h2, h3, h4⟩ := (Holds.new .stats (some t)).bytesAll env.mode args (by omega)
    cases hb : (Builder.newWithKeyType .stats (some t)).bytesAll env.mode args with
    | mk o b =>
      rw [hb] at hp h1 h2 h3
      cases o with
      | ok u =>
        cases u
        rw [process_eq env std _ _ hp]
        have hc : b.intoRequest.commandId = .stats := (bytesAll_keeps hb).1
        unfold Cli.processInner
        rw [hc]
        cases args <;> exact awaiting_start env std .stats .stats _ _ rfl (fun x => stats_written x)
      | err e => exact absurd rfl (hne [] (h2 e rfl).2)
      | panic => have := h1 rfl; omega
      | stuck => exact absurd rfl h3
  · obtain ⟨r, hr, hv⟩ := C45_parsed_partial env.mode std c t w words args hh hw ha hn (.inl hs)
    rw [process_eq env std _ r hr, processInner_views env std hv hn]

/-! ## Further concrete cases -/

example (m : Mode) : Cli.list m plainStd [[97, 98], [99, 100]] = some "ab\nc".toList :=
  C46_list_partial m plainStd [[97, 98]] [99, 100] ['c'] 'd' (by decide +kernel) (by decide)

example (m : Mode) : Cli.map m plainStd [([97], [98]), ([99], [100, 101])] = some "a=b\nc=d".toList :=
  C46_map_partial m plainStd [([97], [98])] [99] [100, 101] ['d'] 'e' (by decide +kernel) (by decide)

example (m : Mode) : Cli.list m plainStd [[97, 98], [0xC3, 0xA9]] = none :=
  (C46_panics m plainStd [[97, 98]] [0xC3, 0xA9] [] 'é' (by decide +kernel) (by decide)).1

example (env : Env) (std : Std) : Cli.process env std "get k".toList = doing env std (meaning .get .bytes [[107]]) :=
  C72_line env std .get .bytes "get".toList ["k".toList] [[107]] (.inl ⟨rfl, rfl⟩) (by decide)
    (.inr ⟨["k".toList], [], [], rfl, rfl, .nil, fun _ => rfl, by decide⟩) (by decide)

end Hop
