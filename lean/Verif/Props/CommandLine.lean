import Verif.Proofs.Cli
import Verif.Proofs.Naming
import Verif.Proofs.TokenOrder
import Verif.Props.KeyText

/-! Properties C40, C41, C42, C43, C65, C70: the command line. -/

namespace Rypt.Props

open Cli Getopts UI CryptStreams Spec

/-- A session at a terminal, used in the examples. -/
def sampleUi : Ui := ⟨⟨[], true, true, true, 0, Spec.sampleTty, [], [], []⟩, false⟩
/-- All standard streams are terminals. -/
def allTtys : Ttys := ⟨true, true, true⟩
/-- No files; a toy hash function. -/
def sampleEnv : Env := ⟨sampleHash, sampleHash_length, fun p => if p = "pw".toList then some [115, 101, 99, 114, 101, 116] else none⟩

/-! ## C70 -/

/-- C70: a command line is split into options and file names exactly if it has a reading by the grammar in which no option that
may be given once is given twice; the result is that reading. -/
theorem command_line_read (args : List Arg) (m : Matches) :
    parse args = .ok m ↔ Typed 0 args m.vals m.free ∧ NoDuplicates m.vals := parse_iff args m

/-- C70: there is at most one reading. -/
theorem one_reading (args : List Arg) (occs occs' : List Occ) (free free' : List Arg) (h : Typed 0 args occs free)
    (h' : Typed 0 args occs' free') : occs = occs' ∧ free = free' := typed_unique h h'

/-- C70: anything else is refused with an error. -/
theorem unreadable_refused (args : List Arg) (h : ¬ ∃ occs free, Typed 0 args occs free ∧ NoDuplicates occs) :
    ∃ e, parse args = .err e := by
  cases hp : parse args with
  | ok m => exact absurd ⟨m.vals, m.free, (parse_iff args m).mp hp⟩ h
  | err e => exact ⟨e, rfl⟩
  | panic => exact absurd hp (parse_no_panic args)

/-- C70: `--force`, `--fast`, `--keep-inputs` and `--discard-inputs` of an accepted conversion are those on the command line. -/
theorem flags_reach_command (env : Env) (args : List Arg) (ttys : Ttys) (ui ui' : Ui) (occs : List Occ) (free : List Arg)
    (ht : Typed 0 args occs free) (streams : List Stream) (policy : CleanupPolicy) (force : Bool) (d : DirectionOpts)
    (h : parseCommandLine env args ttys ui = (.ok (.cryptStreams streams policy force d), ui')) :
    (force = true ↔ Given occs .force) ∧
      (policy = .keepFiles ↔ Given occs .keepInputs) ∧ (policy = .deleteFiles ↔ Given occs .discardInputs) ∧
      ¬ (Given occs .keepInputs ∧ Given occs .discardInputs) ∧
      (∀ c fast, d = .encrypt c fast → (fast = true ↔ Given occs .fast)) := by
  obtain ⟨m, hm, -, ha⟩ := accepted_of h
  obtain ⟨rfl, rfl⟩ := typed_unique ht ((parse_iff args m).mp hm).1
  cases ha with
  | keypair streams h1 h2 h3 h4 h5 => cases h4
  | help h1 h2 h3 => cases h2
  | version h1 h2 h3 h4 => cases h3
  | crypt dir streams' policy' ui1 h1 h2 h3 h4 h5 h6 =>
    have hp : (policy' = .keepFiles ↔ Given m.vals .keepInputs) ∧ (policy' = .deleteFiles ↔ Given m.vals .discardInputs) ∧
        ¬ (Given m.vals .keepInputs ∧ Given m.vals .discardInputs) := by
      unfold Given
      rw [← present_iff, ← present_iff]
      unfold cleanupPolicy at h5
      split at h5 <;> cases h5 <;> simp [*]
    obtain ⟨-, -, ⟨rfl, c, -, h7⟩ | ⟨rfl, cs, -, h7⟩⟩ := cryptCommand_ok h6
    · cases h7
      refine ⟨present_iff _ _, hp.1, hp.2.1, hp.2.2, ?_⟩
      intro c fast he
      cases he
      exact present_iff _ _
    · cases h7
      refine ⟨present_iff _ _, hp.1, hp.2.1, hp.2.2, ?_⟩
      intro c fast he
      cases he

/-- `-fd a --suffix=x -pt12 -- -v` -/
def mixedArgs : List Arg := ["-fd".toList, "a".toList, "--suffix=x".toList, "-pt12".toList, "--".toList, "-v".toList]
/-- Its reading. -/
def mixedMatches : Matches :=
  ⟨[⟨.force, 0, none⟩, ⟨.decrypt, 0, none⟩, ⟨.suffix, 2, some ['x']⟩, ⟨.password, 3, none⟩, ⟨.keyThreshold, 3, some "12".toList⟩], ["a".toList, "-v".toList]⟩

example : Typed 0 mixedArgs mixedMatches.vals mixedMatches.free ∧ NoDuplicates mixedMatches.vals :=
  (command_line_read mixedArgs mixedMatches).mp (by decide +kernel)

/-! ## C40 -/

/-- C40: an accepted command line does what the last argument that selects a mode says (of several letters in that argument, the
one of the highest priority); encryption if there is none; and help if it is empty and typed at a terminal. -/
theorem last_mode_wins (env : Env) (args : List Arg) (ttys : Ttys) (ui ui' : Ui) (occs : List Occ) (free : List Arg)
    (ht : Typed 0 args occs free) (cmd : Command) (h : parseCommandLine env args ttys ui = (.ok cmd, ui')) :
    if args = [] ∧ ttys.stdout = true then cmd.mode = .help else LastMode occs cmd.mode := by
  obtain ⟨m, hm, -, ha⟩ := accepted_of h
  obtain ⟨rfl, rfl⟩ := typed_unique ht ((parse_iff args m).mp hm).1
  have hl := getMode_last m
  cases ha with
  | keypair streams h1 h2 h3 h4 h5 => rw [if_neg h1, h4, Command.mode, ← h2]; exact hl
  | help h1 h2 h3 =>
    split
    · rw [h2]; rfl
    · rename_i hn; rw [h2, Command.mode, ← h1.resolve_left hn]; exact hl
  | version h1 h2 h3 h4 => rw [if_neg h1, h3, Command.mode, ← h2]; exact hl
  | crypt dir streams' policy' ui1 h1 h2 h3 h4 h5 h6 =>
    rw [if_neg h1]
    obtain ⟨-, -, ⟨rfl, c, -, rfl⟩ | ⟨rfl, cs, -, rfl⟩⟩ := cryptCommand_ok h6
    · rw [Command.mode, ← h2]; exact hl
    · rw [Command.mode, ← h2]; exact hl

/-- C40: the mode that wins is determined by the options given. -/
theorem last_mode_unique (occs : List Occ) (a b : OperationMode) (ha : LastMode occs a) (hb : LastMode occs b) : a = b := by
  have hr : ∀ a b : OperationMode, rank a = rank b → a = b := by
    intro a b h
    rcases a with ⟨⟨⟩⟩ | _ | _ | _ <;> rcases b with ⟨⟨⟩⟩ | _ | _ | _ <;> first | rfl | (simp [rank] at h)
  rcases ha with ⟨h1, rfl⟩ | ⟨x, hx, hxm, hxa⟩ <;> rcases hb with ⟨h2, rfl⟩ | ⟨y, hy, hym, hya⟩
  · rfl
  · rw [h1 y hy] at hym; cases hym
  · rw [h2 x hx] at hxm; cases hxm
  · have h3 := hxa y hy _ hym
    have h4 := hya x hx _ hxm
    exact hr _ _ (by omega)

/-- C40: the selection of a mode alone never makes a command line refused. -/
theorem help_always_available (env : Env) (args : List Arg) (ttys : Ttys) (ui : Ui) (occs : List Occ) (free : List Arg)
    (ht : Typed 0 args occs free) (hd : NoDuplicates occs) (hv : -2 ≤ askedVerbosity occs ∧ askedVerbosity occs ≤ 2)
    (hl : LastMode occs .help) : (parseCommandLine env args ttys ui).1 = .ok .help := by
  unfold parseCommandLine
  rw [parse_of_typed ht hd]
  dsimp only
  rw [verbosity_eq, if_neg (not_not_intro hv)]
  have := last_mode_unique _ _ _ (getMode_last ⟨occs, free⟩) hl
  rw [this]
  simp

/-- `-d -g --encrypt -h f` -/
def modesArgs : List Arg := ["-d".toList, "-g".toList, "--encrypt".toList, "-h".toList, "f".toList]
/-- Its reading. -/
def modesMatches : Matches :=
  ⟨[⟨.decrypt, 0, none⟩, ⟨.genKeypair, 1, none⟩, ⟨.encrypt, 2, none⟩, ⟨.help, 3, none⟩], ["f".toList]⟩

theorem modesArgs_read : Typed 0 modesArgs modesMatches.vals modesMatches.free ∧ NoDuplicates modesMatches.vals :=
  (command_line_read modesArgs modesMatches).mp (by decide +kernel)

example : (parseCommandLine sampleEnv modesArgs allTtys sampleUi).1 = .ok .help :=
  help_always_available _ _ _ _ _ _ modesArgs_read.1 modesArgs_read.2 (by decide)
    (.inr ⟨⟨.help, 3, none⟩, by simp [modesMatches], rfl, by simp [modeOf, modesMatches]⟩)

/-! ## C41 -/

private theorem suffix_unique {args : List Arg} {occs : List Occ} {free : List Arg} (ht : Typed 0 args occs free)
    (hd : NoDuplicates occs) :
    SuffixOf occs (Naming.encryptedExtension ((⟨occs, free⟩ : Matches).str .suffix)) ∧
      ∀ ext, SuffixOf occs ext → ext = Naming.encryptedExtension ((⟨occs, free⟩ : Matches).str .suffix) := by
  have hval := (typed_before ht).2.2
  have hone := hd .suffix (by simp [Opt.Repeatable])
  rw [List.countP_eq_length_filter] at hone
  unfold Matches.str Matches.of
  dsimp only
  cases hf : occs.filter (fun x => decide (x.opt = .suffix)) with
  | nil =>
    have hno : ¬ Given occs .suffix := by
      rintro ⟨x, hx, ho⟩
      have : x ∈ occs.filter (fun x => decide (x.opt = .suffix)) := by simp [hx, ho]
      rw [hf] at this
      cases this
    refine ⟨.inl ⟨hno, rfl⟩, ?_⟩
    rintro ext (⟨-, rfl⟩ | ⟨x, hx, ho, -⟩)
    · rfl
    · exact absurd ⟨x, hx, ho⟩ hno
  | cons x l =>
    rw [hf] at hone
    have hl : l = [] := by cases l <;> simp at hone ⊢
    subst hl
    have hx : x ∈ occs ∧ x.opt = .suffix := by
      have : x ∈ occs.filter (fun x => decide (x.opt = .suffix)) := by rw [hf]; simp
      simpa using this
    have huniq : ∀ y ∈ occs, y.opt = .suffix → y = x := by
      intro y hy ho
      have : y ∈ occs.filter (fun x => decide (x.opt = .suffix)) := by simp [hy, ho]
      rw [hf] at this
      simpa using this
    have hv : x.val ≠ none := fun h => by
      have := (hval x hx.1).mpr h
      rw [hx.2] at this
      exact absurd this (by simp [Opt.IsFlag])
    cases hxv : x.val with
    | none => exact absurd hxv hv
    | some v =>
      simp only [List.head?_cons, Option.bind_some, hxv]
      have hcase : ∀ ext, (v = '.' :: ext ∨ v = ext ∧ ext.head? ≠ some '.') → Naming.encryptedExtension (some v) = ext := by
        rintro ext (rfl | ⟨rfl, h⟩)
        · rfl
        · unfold Naming.encryptedExtension
          simp only [Option.getD_some]
          split
          · simp at h
          · rfl
      constructor
      · refine .inr ⟨x, hx.1, hx.2, ?_⟩
        rw [hxv]
        simp only [Option.some.injEq]
        unfold Naming.encryptedExtension
        simp only [Option.getD_some]
        split
        · exact .inl rfl
        · rename_i hnd
          refine .inr ⟨rfl, fun h => ?_⟩
          cases v with
          | nil => simp at h
          | cons c v => simp at h; exact hnd v (by rw [h])
      · rintro ext (⟨hno, -⟩ | ⟨y, hy, ho, h⟩)
        · exact absurd ⟨x, hx⟩ hno
        · rw [huniq y hy ho, hxv] at h
          simp only [Option.some.injEq] at h
          exact (hcase ext h).symm

/-- C41: what an accepted conversion reads and writes. Either there is one stream, from standard input or the one file named, to
standard output; or there is one stream for each argument, in order, from that file to the file with the suffix added or removed
(or to nothing, if there is no such name), and no argument is `-`, even with spaces around it. -/
theorem streams_selected (env : Env) (args : List Arg) (ttys : Ttys) (ui ui' : Ui) (occs : List Occ) (free : List Arg)
    (ht : Typed 0 args occs free) (streams : List Stream) (policy : CleanupPolicy) (force : Bool) (d : DirectionOpts)
    (h : parseCommandLine env args ttys ui = (.ok (.cryptStreams streams policy force d), ui')) :
    ((Given occs .stream ∨ free = [] ∨ free = [['-']]) ∧ ∃ s, streams = [s] ∧ s.output = some .stdout ∧
        ((s.input = .stdin ∧ (free = [] ∨ free = [['-']])) ∨ ∃ p, s.input = .fileStream p ∧ free = [p] ∧ p ≠ ['-'])) ∨
      (¬ Given occs .stream ∧ free ≠ [] ∧ (∀ a ∈ free, ¬ TrimsTo a ['-']) ∧
        ∃ ext, SuffixOf occs ext ∧ (∀ ext', SuffixOf occs ext' → ext' = ext) ∧
          List.Forall₂ (fun a s => s.input = .file a ∧ ∃ o, OutputName force ext a d.dir o ∧ s.output = o.map .file) free streams) := by
  obtain ⟨m, hm, -, ha⟩ := accepted_of h
  obtain ⟨ht', hd⟩ := (parse_iff args m).mp hm
  obtain ⟨rfl, rfl⟩ := typed_unique ht ht'
  cases ha with
  | keypair streams h1 h2 h3 h4 h5 => cases h4
  | help h1 h2 h3 => cases h2
  | version h1 h2 h3 h4 => cases h3
  | crypt dir streams' policy' ui1 h1 h2 h3 h4 h5 h6 =>
    have hc := (cryptCommand_ok h6).2.2
    have hst : streams' = streams ∧ force = m.present .force ∧ d.dir = dir := by
      obtain ⟨rfl, c, -, h7⟩ | ⟨rfl, cs, -, h7⟩ := hc
      · cases h7; exact ⟨rfl, rfl, rfl⟩
      · cases h7; exact ⟨rfl, rfl, rfl⟩
    obtain ⟨rfl, rfl, rfl⟩ := hst
    have hg : Given m.vals .stream ↔ m.present .stream = true := (present_iff _ _).symm
    rw [hg]
    rcases streams_cases m d.dir (m.present .force) with ⟨hs, ⟨-, e, h'⟩ | ⟨i, h', hi⟩⟩ | ⟨hs, ⟨-, e, h'⟩ | ⟨hno, h'⟩⟩
    · rw [h'] at h3; cases h3
    · rw [h'] at h3; cases h3
      exact .inl ⟨hs, _, rfl, rfl, hi⟩
    · rw [h'] at h3; cases h3
    · rw [h'] at h3; cases h3
      obtain ⟨hx1, hx2⟩ := suffix_unique ht hd
      refine .inr ⟨fun h => hs (.inl h), fun h => hs (.inr (.inl h)), fun a ha ht => hno ⟨a, ha, Text.trim_iff.mpr ht⟩, _, hx1, hx2, ?_⟩
      rw [List.forall₂_map_right_iff, List.forall₂_same]
      intro a _
      exact ⟨rfl, outputName_spec m d.dir (m.present .force) a⟩

/-- C41: the name of the output is determined by the input, the suffix and `--force`. -/
theorem output_name_unique (force : Bool) (ext a : Arg) (dir : CryptDirection) (o o' : Option Arg) (h : OutputName force ext a dir o)
    (h' : OutputName force ext a dir o') : o = o' := by
  rw [outputName_determined h, outputName_determined h']

/-- C41: standard input is read by at most one stream, and standard output is written by at most one, and then there is no other
stream. -/
theorem standard_streams_used_once (env : Env) (args : List Arg) (ttys : Ttys) (ui ui' : Ui) (occs : List Occ) (free : List Arg)
    (ht : Typed 0 args occs free) (streams : List Stream) (policy : CleanupPolicy) (force : Bool) (d : DirectionOpts)
    (h : parseCommandLine env args ttys ui = (.ok (.cryptStreams streams policy force d), ui'))
    (hs : ReadsStdin streams ∨ WritesStdout streams) : streams.length = 1 := by
  rcases streams_selected env args ttys ui ui' occs free ht streams policy force d h with ⟨-, s, rfl, -⟩ | ⟨-, -, -, ext, -, -, hf⟩
  · rfl
  · exfalso
    rcases hs with ⟨s, hs, hi⟩ | ⟨s, hs, hi⟩
    · obtain ⟨a, -, h1, -⟩ := forall₂_right hf hs
      rw [h1] at hi; cases hi
    · obtain ⟨a, -, -, o, -, h1⟩ := forall₂_right hf hs
      rw [h1] at hi
      cases o <;> cases hi

/-- C41: two inputs with `--stream`, and `-` among other inputs, are refused, whatever else is on the command line. -/
theorem mixed_streams_refused (env : Env) (args : List Arg) (ttys : Ttys) (ui : Ui) (occs : List Occ) (free : List Arg)
    (ht : Typed 0 args occs free) (hn : 2 ≤ free.length) (hs : Given occs .stream ∨ ['-'] ∈ free)
    (streams : List Stream) (policy : CleanupPolicy) (force : Bool) (d : DirectionOpts) :
    (parseCommandLine env args ttys ui).1 ≠ .ok (.cryptStreams streams policy force d) := by
  intro h
  rcases streams_selected env args ttys ui _ occs free ht streams policy force d (Prod.ext h rfl) with
    ⟨-, s, -, -, ⟨-, h1 | h1⟩ | ⟨p, -, h1, -⟩⟩ | ⟨h1, -, h2, -⟩
  · rw [h1] at hn; simp at hn
  · rw [h1] at hn; simp at hn
  · rw [h1] at hn; simp at hn
  · rcases hs with hs | hs
    · exact h1 hs
    · exact h2 _ hs ⟨[], [], rfl, by simp, by simp, by simp [Text.isWhitespace], by simp [Text.isWhitespace]⟩

/-- The command lines of the examples. -/
def fileArgs : List Arg := ["-f".toList, "x".toList, "--password-file".toList, "pw".toList, "dir/y".toList]

theorem fileArgs_typed : Typed 0 fileArgs [⟨.force, 0, none⟩, ⟨.passwordFile, 2, some "pw".toList⟩] ["x".toList, "dir/y".toList] :=
  ((parse_iff fileArgs ⟨[⟨.force, 0, none⟩, ⟨.passwordFile, 2, some "pw".toList⟩], ["x".toList, "dir/y".toList]⟩).mp (by decide +kernel)).1

/-- Is the result this conversion, up to credentials? -/
def isConversion (streams : List Stream) (policy : CleanupPolicy) (force : Bool) : Res Command → Bool
  | .ok (.cryptStreams s p f _) => decide (s = streams ∧ p = policy ∧ f = force)
  | _ => false

example : isConversion [⟨.file "x".toList, some (.file "x.rypt".toList)⟩, ⟨.file "dir/y".toList, some (.file "dir/y.rypt".toList)⟩]
    .promptUser true (parseCommandLine sampleEnv fileArgs allTtys sampleUi).1 = true := by decide +kernel

/-! ## C42 -/

/-- C42: without `--force`, no accepted command line reads encrypted data from a terminal or writes it to a terminal. -/
theorem no_ciphertext_on_terminal (env : Env) (args : List Arg) (ttys : Ttys) (ui ui' : Ui) (occs : List Occ) (free : List Arg)
    (ht : Typed 0 args occs free) (streams : List Stream) (policy : CleanupPolicy) (force : Bool) (d : DirectionOpts)
    (h : parseCommandLine env args ttys ui = (.ok (.cryptStreams streams policy force d), ui')) (hf : ¬ Given occs .force) :
    ¬ CipherOnTerminal d.dir streams ttys := by
  obtain ⟨m, hm, -, ha⟩ := accepted_of h
  obtain ⟨rfl, rfl⟩ := typed_unique ht ((parse_iff args m).mp hm).1
  cases ha with
  | keypair streams h1 h2 h3 h4 h5 => cases h4
  | help h1 h2 h3 => cases h2
  | version h1 h2 h3 h4 => cases h3
  | crypt dir streams' policy' ui1 h1 h2 h3 h4 h5 h6 =>
    have hc := (cryptCommand_ok h6).2.2
    have hst : streams' = streams ∧ force = m.present .force ∧ d.dir = dir := by
      obtain ⟨rfl, c, -, h7⟩ | ⟨rfl, cs, -, h7⟩ := hc
      · cases h7; exact ⟨rfl, rfl, rfl⟩
      · cases h7; exact ⟨rfl, rfl, rfl⟩
    obtain ⟨rfl, rfl, rfl⟩ := hst
    have := (check_iff (isData_of_streams h3)).1.mp (congrArg Prod.fst h4)
    exact this.resolve_left (fun h => hf ((present_iff _ _).mp h))

/-- C42: the refusal comes before anything is asked or read: nothing is shown or read, and the interface is as before apart from
the level of verbosity. With `--force` there is no such refusal, see `conversion_accepted`. -/
theorem terminal_refusal (env : Env) (args : List Arg) (ttys : Ttys) (ui : Ui) (occs : List Occ) (free : List Arg)
    (ht : Typed 0 args occs free) (hd : NoDuplicates occs) (hv : -2 ≤ askedVerbosity occs ∧ askedVerbosity occs ≤ 2)
    (hne : ¬ (args = [] ∧ ttys.stdout = true)) (dir : CryptDirection) (hl : LastMode occs (.crypt dir)) (hf : ¬ Given occs .force)
    (hc : (dir = .decrypt ∧ (free = [] ∨ free = [['-']]) ∧ ttys.stdin = true) ∨
      (dir = .encrypt ∧ (Given occs .stream ∨ free = [] ∨ free = [['-']]) ∧ ttys.stdout = true)) :
    ∃ e, parseCommandLine env args ttys ui = (.err e, ui.setVerbosity (askedVerbosity occs)) := by
  have hf' : (⟨occs, free⟩ : Matches).present .force = false := by
    rw [← Bool.not_eq_true, present_iff]; exact hf
  have hm : getMode ⟨occs, free⟩ = .crypt dir := last_mode_unique _ _ _ (getMode_last ⟨occs, free⟩) hl
  unfold parseCommandLine
  rw [parse_of_typed ht hd]
  dsimp only
  rw [verbosity_eq, if_neg (not_not_intro hv)]
  have he : (args.isEmpty && ttys.stdout) = false := by
    rw [← Bool.not_eq_true]
    intro h; apply hne; simpa using h
  rw [he]
  simp only [Bool.false_eq_true, if_false]
  rw [hm]
  dsimp only
  have hone : Given occs .stream ∨ free = [] ∨ free = [['-']] := by
    rcases hc with ⟨-, h, -⟩ | ⟨-, h, -⟩
    · exact .inr h
    · exact h
  cases hs : getInputOutputStreams ⟨occs, free⟩ dir ((⟨occs, free⟩ : Matches).present .force) with
  | err e => exact ⟨e, rfl⟩
  | panic =>
    rcases streams_cases ⟨occs, free⟩ dir ((⟨occs, free⟩ : Matches).present .force) with ⟨-, ⟨-, e, h'⟩ | ⟨i, h', -⟩⟩ | ⟨-, ⟨-, e, h'⟩ | ⟨-, h'⟩⟩
    all_goals rw [hs] at h'; cases h'
  | ok streams =>
    have hct : CipherOnTerminal dir streams ttys := by
      rcases streams_cases ⟨occs, free⟩ dir ((⟨occs, free⟩ : Matches).present .force) with ⟨-, ⟨-, e, h'⟩ | ⟨i, h', hi⟩⟩ | ⟨hno, -⟩
      · rw [hs] at h'; cases h'
      · rw [hs] at h'
        cases h'
        rcases hc with ⟨rfl, h1, h2⟩ | ⟨rfl, -, h2⟩
        · refine .inl ⟨rfl, ⟨_, List.mem_singleton.mpr rfl, ?_⟩, h2⟩
          rcases hi with ⟨rfl, -⟩ | ⟨p, rfl, hp, hp'⟩
          · rfl
          · exfalso
            dsimp only at hp
            rw [hp] at h1
            rcases h1 with h1 | h1
            · cases h1
            · cases h1; exact hp' rfl
        · exact .inr ⟨rfl, ⟨_, List.mem_singleton.mpr rfl, rfl⟩, h2⟩
      · exact absurd (by rw [present_iff]; exact hone) hno
    dsimp only
    obtain ⟨e, hce⟩ := (check_iff (ui := ui.setVerbosity (askedVerbosity occs)) (v := askedVerbosity occs) (dir := dir)
      (force := (⟨occs, free⟩ : Matches).present .force) (ttys := ttys) (isData_of_streams hs)).2 (by rw [hf']; simpa using hct)
    rw [hce]
    exact ⟨e, rfl⟩

/-- Is the result a refusal without any action on the terminal? -/
def isQuietRefusal : Res Command × Ui → Bool
  | (.err _, ui) => decide (ui.term.log = [])
  | _ => false

example : isQuietRefusal (parseCommandLine sampleEnv ["-d".toList, "--password-file".toList, "pw".toList] ⟨true, false, true⟩ sampleUi) = true ∧
    isQuietRefusal (parseCommandLine sampleEnv ["-s".toList, "--password-file=pw".toList, "f".toList] ⟨true, true, true⟩ sampleUi) = true ∧
    isConversion [⟨.stdin, some .stdout⟩] .promptUser true
      (parseCommandLine sampleEnv ["-df".toList, "--password-file".toList, "pw".toList] ⟨true, false, true⟩ sampleUi).1 = true ∧
    isConversion [⟨.stdin, some .stdout⟩] .promptUser false
      (parseCommandLine sampleEnv ["-d".toList, "--password-file".toList, "pw".toList] ⟨false, true, true⟩ sampleUi).1 = true := by
  decide +kernel

/-! ## C43 -/

/-- C43: more than two `-v` or `-q` are refused, before anything else. -/
theorem excessive_verbosity_refused (env : Env) (args : List Arg) (ttys : Ttys) (ui : Ui) (occs : List Occ) (free : List Arg)
    (ht : Typed 0 args occs free) (hd : NoDuplicates occs) (hv : askedVerbosity occs < -2 ∨ 2 < askedVerbosity occs) :
    ∃ e, parseCommandLine env args ttys ui = (.err e, ui) := by
  unfold parseCommandLine
  rw [parse_of_typed ht hd]
  dsimp only
  rw [verbosity_eq, if_pos (by dsimp only; omega)]
  exact ⟨_, rfl⟩

/-- C43: in an accepted conversion, a level of verbosity other than 0 on the command line is respected, and the progress bar is as
set before; otherwise the level is 1 at an attended terminal and -1 elsewhere, and the progress bar is shown exactly if it is 1 and
the data is not on a terminal. -/
theorem verbosity_of_conversion (env : Env) (args : List Arg) (ttys : Ttys) (ui ui' : Ui) (occs : List Occ) (free : List Arg)
    (ht : Typed 0 args occs free) (streams : List Stream) (policy : CleanupPolicy) (force : Bool) (d : DirectionOpts)
    (h : parseCommandLine env args ttys ui = (.ok (.cryptStreams streams policy force d), ui')) :
    (-2 ≤ ui'.term.verbosity ∧ ui'.term.verbosity ≤ 2) ∧
      (askedVerbosity occs ≠ 0 → ui'.term.verbosity = askedVerbosity occs ∧ ui'.progress = ui.progress) ∧
      (askedVerbosity occs = 0 →
        (Attended d.dir streams ttys → ui'.term.verbosity = 1) ∧ (¬ Attended d.dir streams ttys → ui'.term.verbosity = -1) ∧
        (ui'.progress = true ↔ Attended d.dir streams ttys ∧ ¬ DataOnTerminal streams ttys)) := by
  obtain ⟨m, hm, hv, ha⟩ := accepted_of h
  obtain ⟨rfl, rfl⟩ := typed_unique ht ((parse_iff args m).mp hm).1
  cases ha with
  | keypair streams h1 h2 h3 h4 h5 => cases h4
  | help h1 h2 h3 => cases h2
  | version h1 h2 h3 h4 => cases h3
  | crypt dir streams' policy' ui1 h1 h2 h3 h4 h5 h6 =>
    obtain ⟨hpr, hfr, hc⟩ := cryptCommand_ok h6
    have hst : streams' = streams ∧ d.dir = dir := by
      obtain ⟨rfl, c, -, h7⟩ | ⟨rfl, cs, -, h7⟩ := hc
      · cases h7; exact ⟨rfl, rfl⟩
      · cases h7; exact ⟨rfl, rfl⟩
    obtain ⟨rfl, rfl⟩ := hst
    have hve : ui'.term.verbosity = ui1.term.verbosity := hfr.verbosity
    obtain ⟨he1, he2⟩ := check_effect (isData_of_streams h3) h4
    rw [hve, hpr]
    by_cases hz : askedVerbosity m.vals = 0
    · have he := he2 hz
      subst he
      refine ⟨?_, fun h => absurd hz h, fun _ => ⟨fun h => if_pos h, fun h => if_neg h, by simp⟩⟩
      dsimp only
      split <;> decide
    · have he := he1 hz
      subst he
      exact ⟨hv, fun _ => ⟨rfl, rfl⟩, fun h => absurd h hz⟩

/-- C43: other commands keep the level asked for. -/
theorem verbosity_of_others (env : Env) (args : List Arg) (ttys : Ttys) (ui ui' : Ui) (occs : List Occ) (free : List Arg)
    (ht : Typed 0 args occs free) (cmd : Command) (h : parseCommandLine env args ttys ui = (.ok cmd, ui'))
    (hn : ∀ streams policy force d, cmd ≠ .cryptStreams streams policy force d) : ui' = ui.setVerbosity (askedVerbosity occs) := by
  obtain ⟨m, hm, hv, ha⟩ := accepted_of h
  obtain ⟨rfl, rfl⟩ := typed_unique ht ((parse_iff args m).mp hm).1
  cases ha with
  | keypair streams h1 h2 h3 h4 h5 => exact h5
  | help h1 h2 h3 => exact h3
  | version h1 h2 h3 h4 => exact h4
  | crypt dir streams' policy' ui1 h1 h2 h3 h4 h5 h6 =>
    obtain ⟨-, -, ⟨rfl, c, -, h7⟩ | ⟨rfl, cs, -, h7⟩⟩ := cryptCommand_ok h6
    · exact absurd h7 (hn _ _ _ _)
    · exact absurd h7 (hn _ _ _ _)

/-- The level of verbosity and the progress flag after parsing. -/
def levels (r : Res Command × Ui) : Int × Bool := (r.2.term.verbosity, r.2.progress)

example : levels (parseCommandLine sampleEnv fileArgs allTtys sampleUi) = (1, true) ∧
    levels (parseCommandLine sampleEnv fileArgs ⟨true, true, false⟩ sampleUi) = (-1, false) ∧
    levels (parseCommandLine sampleEnv ["-d".toList, "--password-file".toList, "pw".toList] ⟨false, true, true⟩ sampleUi) = (1, false) ∧
    levels (parseCommandLine sampleEnv ["--password-file".toList, "pw".toList] ⟨false, true, true⟩ sampleUi) = (0, false) ∧
    levels (parseCommandLine sampleEnv (fileArgs ++ ["-qvq".toList]) allTtys sampleUi) = (-1, false) := by decide +kernel

/-! ## C65 -/

/-- C65: key generation refuses an empty list of paths and more than one `-`, and nothing else. -/
theorem keypair_paths_accepted_iff (env : Env) (args : List Arg) (ttys : Ttys) (ui : Ui) (occs : List Occ) (free : List Arg)
    (ht : Typed 0 args occs free) (hd : NoDuplicates occs) (hv : -2 ≤ askedVerbosity occs ∧ askedVerbosity occs ≤ 2)
    (hl : LastMode occs .generateKeypair) :
    (∃ cmd, (parseCommandLine env args ttys ui).1 = .ok cmd) ↔ free ≠ [] ∧ free.count ['-'] ≤ 1 := by
  have hm : getMode ⟨occs, free⟩ = .generateKeypair := last_mode_unique _ _ _ (getMode_last ⟨occs, free⟩) hl
  have hne : ¬ (args = []) := by
    rintro rfl
    cases ht with
    | nil => rcases hl with ⟨-, h⟩ | ⟨x, hx, -⟩
             · cases h
             · cases hx
  unfold parseCommandLine
  rw [parse_of_typed ht hd]
  dsimp only
  rw [verbosity_eq, if_neg (not_not_intro hv), hm]
  have : args.isEmpty = false := by cases args with | nil => exact absurd rfl hne | cons => rfl
  rw [this]
  simp only [Bool.false_and, Bool.false_eq_true, if_false]
  unfold getKeypairStreams
  obtain ⟨h1, h2⟩ := keypairStreams_spec free true
  cases free with
  | nil => simp
  | cons a l =>
    simp only [List.isEmpty_cons, Bool.false_eq_true, if_false, ne_eq, reduceCtorEq, not_false_eq_true, true_and]
    constructor
    · rintro ⟨cmd, h⟩
      split at h
      · rename_i ss hss; exact (h1 ss hss).2
      · cases h
      · cases h
    · intro h
      obtain ⟨ss, hss⟩ := h2 h
      exact ⟨_, by rw [hss]⟩

/-- C65: one pair for each path in order: `-` means the private key on standard output and no public key; any other path is that of
the private key, and the public key goes to the same name with the extension replaced by `pub`. -/
theorem keypair_paths (env : Env) (args : List Arg) (ttys : Ttys) (ui ui' : Ui) (occs : List Occ) (free : List Arg)
    (ht : Typed 0 args occs free) (streams : List KeyPairOutputStreams) (force : Bool)
    (h : parseCommandLine env args ttys ui = (.ok (.generateKeyPair streams force), ui')) :
    List.Forall₂ PairFor free streams ∧ (force = true ↔ Given occs .force) := by
  obtain ⟨m, hm, hv, ha⟩ := accepted_of h
  obtain ⟨rfl, rfl⟩ := typed_unique ht ((parse_iff args m).mp hm).1
  cases ha with
  | crypt dir streams' policy' ui1 h1 h2 h3 h4 h5 h6 =>
    obtain ⟨-, -, ⟨rfl, c, -, h7⟩ | ⟨rfl, cs, -, h7⟩⟩ := cryptCommand_ok h6 <;> cases h7
  | help h1 h2 h3 => cases h2
  | version h1 h2 h3 h4 => cases h3
  | keypair streams' h1 h2 h3 h4 h5 =>
    cases h4
    unfold getKeypairStreams at h3
    split at h3
    · cases h3
    · exact ⟨((keypairStreams_spec m.free true).1 _ h3).1, present_iff _ _⟩

/-- C65: the public key of a path that does not end in `.pub` goes to another path. -/
theorem public_path_differs (path dir name pub : Arg) (hn : Named path dir name) (hx : ¬ HasExtension name "pub".toList)
    (h : PairFor path ⟨some (.file pub), .file path⟩) : pub ≠ path ∧ pub ≠ dir ++ name := by
  rcases h with ⟨-, h⟩ | ⟨-, -, pub', h1, h2⟩
  · cases h
  cases h1
  obtain ⟨h3, h4⟩ := h2 dir name hn
  have key : ∃ s, s ≠ [] ∧ '/' ∉ s ∧ pub = dir ++ s ++ ".pub".toList := by
    have hsl : '/' ∉ name := by obtain ⟨t, -, -, hn, -⟩ := hn; exact hn.2.1
    by_cases he : ∃ e, HasExtension name e
    · obtain ⟨e, s, hs, rfl, hd⟩ := he
      exact ⟨s, hs, by simp at hsl; exact hsl.1, h4 s e hs rfl hd⟩
    · exact ⟨name, by obtain ⟨t, -, -, hn, -⟩ := hn; exact hn.1, hsl, h3 he⟩
  obtain ⟨s, hs, hsl, hpub⟩ := key
  have h5 : pub ≠ dir ++ name := by
    rw [hpub, List.append_assoc]
    intro h
    exact hx ⟨s, hs, (List.append_cancel_left h).symm, by decide⟩
  refine ⟨?_, h5⟩
  obtain ⟨t, hp, -, -, htr⟩ := hn
  rw [hp]
  intro h
  cases htr with
  | nil => exact h5 (by simpa using h)
  | slash t' _ =>
    rw [hpub] at h
    have := congrArg List.getLast? h
    simp at this
  | dot t' _ =>
    rw [hpub] at h
    have := congrArg List.getLast? h
    simp at this

/-- C65: the paths of two key pairs may name the same public key: `a.x` and `a.y`. -/
theorem public_paths_can_collide :
    PairFor "a.x".toList ⟨some (.file "a.pub".toList), .file "a.x".toList⟩ ∧
      PairFor "a.y".toList ⟨some (.file "a.pub".toList), .file "a.y".toList⟩ := by
  constructor
  · have h := pairFor_file "a.x".toList (by decide)
    rw [show Paths.withExtension "a.x".toList ['p', 'u', 'b'] = "a.pub".toList from by decide +kernel] at h
    exact h
  · have h := pairFor_file "a.y".toList (by decide)
    rw [show Paths.withExtension "a.y".toList ['p', 'u', 'b'] = "a.pub".toList from by decide +kernel] at h
    exact h

example : parseCommandLine sampleEnv ["-g".toList, "k/id.key".toList, "-".toList] allTtys sampleUi =
    (.ok (.generateKeyPair [⟨some (.file "k/id.pub".toList), .file "k/id.key".toList⟩, ⟨none, .stdout⟩] false), sampleUi) := by
  have h : parse ["-g".toList, "k/id.key".toList, "-".toList] = .ok ⟨[⟨.genKeypair, 0, none⟩], ["k/id.key".toList, "-".toList]⟩ := by
    decide +kernel
  have hk : getKeypairStreams ⟨[⟨.genKeypair, 0, none⟩], ["k/id.key".toList, "-".toList]⟩ =
      .ok [⟨some (.file "k/id.pub".toList), .file "k/id.key".toList⟩, ⟨none, .stdout⟩] := by decide +kernel
  have hm : getMode ⟨[⟨.genKeypair, 0, none⟩], ["k/id.key".toList, "-".toList]⟩ = .generateKeypair := by decide +kernel
  unfold parseCommandLine
  rw [h]
  dsimp only
  rw [hm, hk]
  rfl

end Rypt.Props
