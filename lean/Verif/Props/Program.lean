import Verif.Proofs.Program
import Verif.Props.Commands
import Verif.Props.CliCredentials
import Verif.Props.GenKeys
import Verif.Props.Naming
import Mathlib.Tactic.ByContra

/-! Properties C82-C86: the whole program, from its arguments to its effects. -/

namespace Rypt.Props

open Getopts Cli UI Filesystem CryptStreams HeaderCrypto Program

/-! ## C82 -/

/-- C82: the exit status is 0, 1 or 101. For what it means see the theorems below, for 101 see C98. -/
theorem exit_codes (p : Start) (m : Moment) (h : Reaches p m) :
    m.exit = none ∨ m.exit = some 0 ∨ m.exit = some 1 ∨ m.exit = some 101 := by
  cases h with
  | start => exact .inl rfl
  | refused => exact .inr (.inr (.inl rfl))
  | parsePanic => exact .inr (.inr (.inr rfl))
  | keygenFails => exact .inr (.inr (.inl rfl))
  | keygenDuring => exact .inl rfl
  | crypt streams policy force d ui ls st hp hr =>
    cases hpc : st.pc with
    | done ok => cases ok <;> simp [exitOf]
    | _ => simp [exitOf]
  | keygen streams force ui C seeds hp =>
    generalize GenKeys.generateKeyPairFiles _ _ _ _ = r
    obtain ⟨r, w⟩ := r
    match r with
    | .ok [] => exact .inr (.inl rfl)
    | .ok (_ :: _) => exact .inr (.inr (.inl rfl))
    | .err _ => exact .inr (.inr (.inl rfl))
    | .panic => exact .inr (.inr (.inr rfl))
  | help ui m hp hm => cases hm <;> simp
  | version ui m hp hm => cases hm <;> simp

/-- Nothing happens if there is no command. -/
private theorem refused_of {p : Start} {m : Moment} (h : Reaches p m) (hr : ∀ cmd, p.parse.1 ≠ .ok cmd) :
    m.fs = p.fs ∧ m.stdout = [] ∧ m.exit ≠ some 0 ∧
      (m.exit = some 1 → ∃ e ui, p.parse = (.err e, ui) ∧ m.term = some (printError ui.term p.name "Error".toList).2) := by
  have hno : ∀ {cmd ui}, p.parse ≠ (.ok cmd, ui) := fun h => hr _ (congrArg Prod.fst h)
  cases h with
  | start => simp
  | refused e ui hp => exact ⟨rfl, rfl, by simp, fun _ => ⟨e, ui, hp, rfl⟩⟩
  | parsePanic => simp
  | keygenFails _ _ _ _ hp => exact absurd hp hno
  | crypt streams policy force d ui ls st hp hr => exact absurd hp hno
  | keygen streams force ui C seeds hp => exact absurd hp hno
  | keygenDuring streams force ui C seeds _ _ hp => exact absurd hp hno
  | help ui m hp => exact absurd hp hno
  | version ui m hp => exact absurd hp hno

private theorem refusable_no_command {p : Start} (h : Refusable p) (cmd : Command) : p.parse.1 ≠ .ok cmd := by
  intro hc
  have hp : p.parse = (.ok cmd, p.parse.2) := Prod.ext hc rfl
  have read : ∃ m, parse p.args = .ok m ∧ (-2 ≤ askedVerbosity m.vals ∧ askedVerbosity m.vals ≤ 2) := by
    obtain ⟨m, hm, hv, -⟩ := accepted_of hp
    exact ⟨m, hm, hv⟩
  obtain ⟨m, hm, hv⟩ := read
  obtain ⟨htm, hd⟩ := (Getopts.parse_iff p.args m).mp hm
  -- the mode decides on the command
  have crypt : ∀ {occs free dir}, Typed 0 p.args occs free → LastMode occs (.crypt dir) → ¬ (p.args = [] ∧ p.ttys.stdout = true) →
      ∃ streams policy force d, cmd = .cryptStreams streams policy force d ∧ d.dir = dir := by
    intro occs free dir ht hl hne
    have hw := last_mode_wins _ _ _ _ _ _ _ ht cmd hp
    rw [if_neg hne] at hw
    have := last_mode_unique _ _ _ hw hl
    match cmd, this with
    | .cryptStreams s po f (.encrypt c fast), h => simp [Command.mode] at h; exact ⟨_, _, _, _, rfl, h⟩
    | .cryptStreams s po f (.decrypt S), h => simp [Command.mode] at h; exact ⟨_, _, _, _, rfl, h⟩
    | .generateKeyPair _ _, h => cases h
    | .help, h => cases h
    | .version, h => cases h
  have nonempty : ∀ {occs : List Occ} {free : List Arg} {x : Occ}, Typed 0 p.args occs free → x ∈ occs →
      ¬ (p.args = [] ∧ p.ttys.stdout = true) := by
    rintro occs free x ht hx ⟨h0, -⟩
    rw [h0] at ht
    cases ht
    cases hx
  cases h with
  | unreadable h => exact h ⟨_, _, htm, hd⟩
  | verbosity occs free ht h =>
    obtain ⟨rfl, rfl⟩ := typed_unique ht htm
    omega
  | keyPaths occs free ht hl h =>
    obtain ⟨rfl, rfl⟩ := typed_unique ht htm
    have := (keypair_paths_accepted_iff p.env p.args p.ttys p.ui _ _ ht hd hv hl).mp ⟨cmd, hc⟩
    rcases h with h | h
    · exact this.1 h
    · omega
  | policies occs free dir ht hl h1 h2 =>
    obtain ⟨x, hx, -⟩ := id h1
    obtain ⟨streams, policy, force, d, rfl, -⟩ := crypt ht hl (nonempty ht hx)
    exact (flags_reach_command _ _ _ _ _ _ _ ht _ _ _ _ hp).2.2.2.1 ⟨h1, h2⟩
  | terminal occs free dir ht hl hne hf h =>
    obtain ⟨rfl, rfl⟩ := typed_unique ht htm
    obtain ⟨e, he⟩ := terminal_refusal p.env p.args p.ttys p.ui _ _ ht hd hv hne dir hl hf h
    rw [show p.parse = _ from he] at hc
    cases hc
  | streams occs free dir ht hl hn hs =>
    have hne : ¬ (p.args = [] ∧ p.ttys.stdout = true) := by
      rintro ⟨h0, -⟩
      rw [h0] at ht
      cases ht
      simp at hn
    obtain ⟨streams, policy, force, d, rfl, -⟩ := crypt ht hl hne
    exact mixed_streams_refused _ _ _ _ _ _ ht hn hs _ _ _ _ hc
  | key occs free dir pos text ht hl hf hx hbad =>
    obtain ⟨streams, policy, force, d, rfl, -⟩ := crypt ht hl (nonempty ht hx)
    exact mistyped_key_refused _ _ _ _ _ _ ht hf (.inl ⟨pos, text, hx, hbad⟩) _ _ _ _ hc
  | keyFile occs free dir o pos path ht hl ho hx hbad =>
    obtain ⟨streams, policy, force, d, rfl, -⟩ := crypt ht hl (nonempty ht hx)
    refine empty_key_file_refused _ _ _ _ _ _ ht o ho pos path hx (fun ls hls => ?_) _ _ _ _ hc
    obtain ⟨text, trimmed, h1, h2, rfl⟩ := hls
    have hnil : p.env.readFile path = none ∨ p.env.readFile path = some [] := by
      unfold Start.env
      dsimp only
      split
      · exact .inl rfl
      · rcases hbad with h | ⟨ino, h, h'⟩
        · left
          have : p.fs.openRead path = none := by
            unfold FS.openRead FS.follow
            simp [h]
          rw [this]
        · right
          have : p.fs.openRead path = some (.file ino) := by
            unfold FS.openRead FS.follow
            simp [h]
          rw [this]
          simp [h']
    rcases hnil with h | h
    · rw [h] at h1; cases h1
    · rw [h] at h1
      have : text = [] := by
        cases text with
        | nil => rfl
        | cons c text =>
          exfalso
          have h3 := Option.some.inj h1
          rw [KeyText.utf8_eq] at h3
          simp [Text.encode, Text.encodeChar_ne_nil] at h3
      subst this
      cases h2 with
      | cons h2 h2' =>
        cases h2'
        obtain ⟨a, b, h3, -⟩ := h2
        simp only [List.nil_eq_append_iff, List.append_eq_nil_iff] at h3
        simp [h3.1.2]

/-- C82: a command line that is to be refused changes no file and writes nothing to standard output, and the program does not
claim success. -/
theorem refused_changes_nothing (p : Start) (hr : Refusable p) (m : Moment) (h : Reaches p m) :
    m.fs = p.fs ∧ m.stdout = [] ∧ m.exit ≠ some 0 := by
  have := refused_of h (refusable_no_command hr)
  exact ⟨this.1, this.2.1, this.2.2.1⟩

/-- C82: the refusal ends with a message that starts with the name of the program, unless `-qq` asks for silence or standard error
cannot be written to. -/
theorem refusal_is_reported (p : Start) (hr : Refusable p) (hw : ∀ w ∈ p.writes, w = none)
    (hq : ∀ occs free, Typed 0 p.args occs free → askedVerbosity occs ≠ -2) (m : Moment) (h : Reaches p m) (hx : m.exit = some 1) :
    ∃ t pre message, m.term = some t ∧ t.log = pre ++ [.wrote (p.name ++ ": ".toList ++ message ++ ['\n'])] := by
  obtain ⟨-, -, -, h4⟩ := refused_of h (refusable_no_command hr)
  obtain ⟨e, ui, hp, ht⟩ := h4 hx
  obtain ⟨v, hf, hv⟩ := parseCommandLine_frame p.env p.args p.ttys p.ui
  rw [show parseCommandLine p.env p.args p.ttys p.ui = (.err e, ui) from hp] at hf
  have hv1 : -1 ≤ ui.term.verbosity := by
    rw [hf.verbosity]
    rcases hv with ⟨rfl, -⟩ | ⟨m', hm', hb, rfl | ⟨-, h | h⟩⟩
    · simp [Start.ui]
    · have := hq _ _ ((Getopts.parse_iff p.args m').mp hm').1
      dsimp only
      omega
    · dsimp only; omega
    · dsimp only; omega
  have hww : ∀ w ∈ ui.term.writes, w = none := fun w hw' => hw w (hf.writes.subset hw')
  refine ⟨_, ui.term.log, "Error".toList, ht, ?_⟩
  unfold printError
  rw [if_pos (by simp [willPrint, errorVerbosity, hv1])]
  unfold writeAll
  split
  · rfl
  · rfl
  · rename_i n ws hws
    have := hww (some n) (by rw [hws]; simp)
    cases this

/-- C82: `--help` (or an empty command line typed at a terminal) changes no file; what is written to standard output is the help text
or, in case of an error, the beginning of it. -/
theorem help_shown (p : Start) (m : Moment) (h : Reaches p m) (occs : List Occ) (free : List Arg) (ht : Typed 0 p.args occs free)
    (hd : NoDuplicates occs) (hv : -2 ≤ askedVerbosity occs ∧ askedVerbosity occs ≤ 2)
    (hl : LastMode occs .help ∨ (p.args = [] ∧ p.ttys.stdout = true)) :
    m.fs = p.fs ∧ m.stdout <+: Text.encode (Help.text p.name) ∧ m.exit ≠ some 101 ∧ (m.exit = some 0 → m.stdout = Text.encode (Help.text p.name)) := by
  have hp : p.parse.1 = .ok .help := by
    rcases hl with hl | ⟨h0, h1⟩
    · exact help_always_available _ _ _ _ _ _ ht hd hv hl
    · unfold Start.parse parseCommandLine
      rw [h0, h1]
      rfl
  have hno : ∀ {r ui}, p.parse = (r, ui) → r = .ok .help := fun h => by rw [← hp, h]
  cases h with
  | start => simp
  | refused e ui h => cases hno h
  | parsePanic ui h => cases hno h
  | keygenFails _ _ _ _ h => cases hno h
  | crypt streams policy force d ui ls st h => cases hno h
  | keygen streams force ui C seeds h => cases hno h
  | keygenDuring streams force ui C seeds _ _ h => cases hno h
  | help ui m h hm =>
    cases hm with
    | all => simp
    | part b hb => simp [hb]
  | version ui m h => cases hno h

/-! ## C83 -/

/-- An execution that converts. -/
private theorem crypt_of {p : Start} {m : Moment} (h : Reaches p m) {dir : CryptDirection} {occs : List Occ} {free : List Arg}
    (ht : Typed 0 p.args occs free) (hl : LastMode occs (.crypt dir)) (hne : ¬ (p.args = [] ∧ p.ttys.stdout = true))
    (hx : m.exit = some 0) :
    ∃ streams policy force d ui ls st, p.parse = (.ok (.cryptStreams streams policy force d), ui) ∧
      Run (p.config streams policy force d ui) (State.start (p.config streams policy force d ui) p.fs) ls st ∧
      st.pc = .done true ∧ m.fs = st.fs ∧ m.stdout = st.stdout ∧ d.dir = dir := by
  have hmode : ∀ {cmd ui}, p.parse = (.ok cmd, ui) → cmd.mode = .crypt dir := by
    intro cmd ui hp
    have := last_mode_wins p.env p.args p.ttys p.ui ui occs free ht cmd hp
    rw [if_neg hne] at this
    exact last_mode_unique _ _ _ this hl
  cases h with
  | start => cases hx
  | refused => cases hx
  | parsePanic => cases hx
  | keygenFails => cases hx
  | crypt streams policy force d ui ls st hp hr =>
    refine ⟨streams, policy, force, d, ui, ls, st, hp, hr, exitOf_zero hx, rfl, rfl, ?_⟩
    have := hmode hp
    cases d <;> (simp [Command.mode] at this; rw [← this]; rfl)
  | keygen streams force ui C seeds hp => have := hmode hp; cases this
  | keygenDuring => cases hx
  | help ui m hp => have := hmode hp; cases this
  | version ui m hp => have := hmode hp; cases this

/-- What a successful conversion has written. -/
theorem result_of {L : CryptoLib} (hL : L.Lawful) {d : DirectionOpts} {dir : CryptFile.Direction} {b F : Bytes} {flt : Bool}
    (hal : (dirOpts d).allows dir) (hc : CryptFile.Conversion L b dir ⟨F, some (.ok ()), flt⟩) : ResultOf L b F d := by
  cases d with
  | encrypt c fast =>
    cases dir with
    | decrypt S => exact absurd hal (by simp [dirOpts, DirOpts.allows])
    | encrypt opts draw tape =>
      obtain ⟨rfl, hdraw⟩ := hal
      have : ∃ v, encryptHeader L ⟨c, fast⟩ draw tape = .ok v := by
        generalize ho : (⟨F, some (.ok ()), flt⟩ : CryptFile.Obs) = o at hc
        cases hc with
        | encrypting _ _ _ hdr codec cs _ _ _ he => exact ⟨_, he⟩
        | _ => simp at ho
      obtain ⟨⟨hdr, codec, cs⟩, he⟩ := this
      exact ⟨draw, tape, hdr, codec, cs, hdraw, he, encrypted_file_layout hL hdraw he hc⟩
  | decrypt S =>
    cases dir with
    | encrypt _ _ _ => exact absurd hal (by simp [dirOpts, DirOpts.allows])
    | decrypt S' =>
      obtain rfl : S' = S := hal
      exact ⟨flt, hc⟩

/-- The credentials of an accepted command line. -/
theorem asked_of {p : Start} {occs : List Occ} {free : List Arg} (ht : Typed 0 p.args occs free) {streams : List Stream}
    {policy : CleanupPolicy} {force : Bool} {d : DirectionOpts} {ui : Ui}
    (hp : p.parse = (.ok (.cryptStreams streams policy force d), ui)) : Asked p occs ui.term d := by
  have hf := flags_reach_command _ _ _ _ _ _ _ ht _ _ _ _ hp
  cases d with
  | encrypt c fast =>
    obtain ⟨typed, v, h1, h2⟩ := encryption_credential_is_typed _ _ _ _ _ _ _ ht _ _ _ _ _ hp
    exact ⟨typed, v, force, h1, hf.1, hf.2.2.2.2 c fast rfl, h2⟩
  | decrypt S =>
    obtain ⟨typed, v, h1, h2⟩ := decryption_credentials_complete _ _ _ _ _ _ _ ht _ _ _ _ hp
    exact ⟨typed, v, force, h1, hf.1, h2⟩

/-- C83: when a conversion of files without `--force` exits with status 0, then for every argument that named a regular file, the
file with the suffix added or removed holds the complete result of converting what that file held, with the credentials asked
for on the command line. -/
theorem files_are_converted (p : Start) (hL : p.lib.Lawful) (hwf : p.fs.WF) (dir : CryptDirection) (occs : List Occ) (free : List Arg)
    (hc : ConvertsFiles p dir occs free) (hf : ¬ Given occs .force) (hun : NoChain p dir occs free) (m : Moment) (h : Reaches p m)
    (hx : m.exit = some 0) :
    ∃ d t ext, d.dir = dir ∧ Asked p occs t d ∧ SuffixOf occs ext ∧ ∀ a ∈ free, ∀ b, p.fs.holds a b →
      ∃ q F, OutputName false ext a dir (some q) ∧ m.fs.holds q F ∧ ResultOf p.lib b F d := by
  obtain ⟨ht, hl, hs, hsome, hdash⟩ := hc
  have hne : ¬ (p.args = [] ∧ p.ttys.stdout = true) := by
    rintro ⟨h0, -⟩
    rw [h0] at ht
    cases ht
    exact hsome rfl
  obtain ⟨streams, policy, force, d, ui, ls, st, hp, hr, hpc, hfs, -, hd⟩ := crypt_of h ht hl hne hx
  have hforce : force = false := by
    rw [← Bool.not_eq_true, (flags_reach_command _ _ _ _ _ _ _ ht _ _ _ _ hp).1]; exact hf
  subst hforce
  rcases streams_selected _ _ _ _ _ _ _ ht _ _ _ _ hp with ⟨h1 | h1 | h1, -⟩ | ⟨-, -, -, ext, he1, he2, hall⟩
  · exact absurd h1 hs
  · exact absurd h1 hsome
  · exact absurd h1 hdash
  rw [hd] at hall
  refine ⟨d, ui.term, ext, hd, asked_of ht hp, he1, fun a ha b hb => ?_⟩
  obtain ⟨s, hsm, hsi, o, ho, hso⟩ := forall₂_left hall ha
  have hunch : (p.config streams policy false d ui).Unchained p.fs := by
    intro s1 hs1 s2 hs2 p1 q hi1 ho2
    obtain ⟨a1, ha1, hi, -⟩ := forall₂_right hall hs1
    obtain ⟨a2, ha2, -, o2, hon, hoo⟩ := forall₂_right hall hs2
    rw [hi] at hi1
    cases hi1
    rw [hoo] at ho2
    cases o2 with
    | none => cases ho2
    | some q2 =>
      cases ho2
      exact hun _ ha1 a2 ha2 false ext _ he1 hon
  -- there is an output name, as the conversion did not fail
  have hout : o ≠ none := by
    rintro rfl
    obtain ⟨hnf, hu⟩ := (exit_status hr hpc).mp rfl
    have hev := every_file_dealt_with hr hpc hu
    have hsm' : s ∈ ls.filterMap Label.ended := by rw [hev]; exact hsm
    obtain ⟨l, hl', hle⟩ := List.mem_filterMap.mp hsm'
    obtain ⟨c, hinv⟩ := inv_run rfl hwf hr
    cases l with
    | converted s' dir' i o' =>
      obtain rfl : s' = s := by simpa [Label.ended] using hle
      exact (hinv.events s' dir' i o' hl').2.2.1 (by rw [hso]; rfl)
    | failed s' => exact hnf _ hl'
    | _ => simp [Label.ended] at hle
  cases o with
  | none => exact absurd rfl hout
  | some q =>
    obtain ⟨dir', F, flt, hF, hal, hconv⟩ := result_at (cfg := p.config streams policy false d ui) rfl hwf hunch hr hpc hsm hsi hso hb
    exact ⟨q, F, ho, by rw [hfs]; exact hF, result_of hL hal hconv⟩

/-- C83: when a conversion to standard output exits with status 0 (with `--force` or not), then no file has changed, and standard
output is the complete result of converting standard input after what was typed to prompts, or of converting the file named. -/
theorem stream_is_converted (p : Start) (hL : p.lib.Lawful) (dir : CryptDirection) (occs : List Occ) (free : List Arg)
    (hc : ConvertsStream p dir occs free) (m : Moment) (h : Reaches p m) (hx : m.exit = some 0) :
    m.fs = p.fs ∧ ∃ d t i, d.dir = dir ∧ Asked p occs t d ∧ ResultOf p.lib i m.stdout d ∧
      (free = [] ∨ free = [['-']] → t.stdin = i.map .byte) ∧
      (∀ a ino, free = [a] → a ≠ ['-'] → p.fs.openRead a = some (.file ino) → i = p.fs.content ino) := by
  obtain ⟨ht, hl, hs, hne⟩ := hc
  obtain ⟨streams, policy, force, d, ui, ls, st, hp, hr, hpc, hfs, hout, hd⟩ := crypt_of h ht hl hne hx
  rcases streams_selected _ _ _ _ _ _ _ ht _ _ _ _ hp with ⟨-, s, hs1, hs2, hs3⟩ | ⟨h1, h2, h3, -⟩
  · have hin' : ∀ q, s.input ≠ .file q := by
      rcases hs3 with ⟨h3, -⟩ | ⟨q, h3, -⟩ <;> (rw [h3]; simp)
    obtain ⟨dir', i, flt, hmem, hal, ⟨hread, -⟩, hin, hconv⟩ :=
      stdout_gets_result (cfg := p.config streams policy force d ui) hs1 hin' hs2 hr hpc
    have hsame := (stream_mode_at_every_moment (cfg := p.config streams policy force d ui) hs1 hin' hs2 hr).1
    refine ⟨hfs.trans hsame, d, ui.term, i, hd, asked_of ht hp, ?_, ?_, ?_⟩
    · rw [hout]; exact result_of hL hal hconv
    · intro hfree
      rcases hs3 with ⟨h3, -⟩ | ⟨q, h3, hq, hq'⟩
      · exact hin h3
      · rw [hq] at hfree
        rcases hfree with hfree | hfree
        · cases hfree
        · cases hfree; exact absurd rfl hq'
    · intro a ino ha had hopen
      rcases hs3 with ⟨-, h3⟩ | ⟨q, h3, hq, -⟩
      · rw [ha] at h3
        rcases h3 with h3 | h3
        · cases h3
        · cases h3; exact absurd rfl had
      · rw [ha] at hq
        cases hq
        exact hread a ino h3 hopen
  · exfalso
    rcases hs with hs | hs | hs
    · exact h1 hs
    · exact h2 hs
    · exact h3 ['-'] (by rw [hs]; simp) ⟨[], [], rfl, by simp, by simp, by simp [Text.isWhitespace], by simp [Text.isWhitespace]⟩

/-! ## C84 -/

/-- What is asked for is a proper tree, if a header can be made for it. -/
theorem asked_wf {p : Start} {occs : List Occ} {t : Term} {c : ComplexCredential} {fast : Bool}
    (h : Asked p occs t (.encrypt c fast)) {L : CryptoLib} {draw : Nat} {tape : Tape} {r : Bytes × Codec × Nat}
    (he : encryptHeader L ⟨c, fast⟩ draw tape = .ok r) : c.WF := by
  obtain ⟨typed, v, force, -, -, -, h⟩ := h
  exact describes_wf h (encryptHeader_noWrap h he)

/-- What is asked for can be used. -/
theorem asked_usable {p : Start} {occs : List Occ} {t : Term} {S : List Credential}
    (h : Asked p occs t (.decrypt S)) : ∀ c ∈ S, Usable c := by
  obtain ⟨typed, v, force, -, -, h⟩ := h
  exact providesAll_usable h

private theorem decryption_of_encryption {L : CryptoLib} (hL : L.Lawful) {p : Start} {occs : List Occ} {t : Term}
    {c : ComplexCredential} {fast : Bool} (ha : Asked p occs t (.encrypt c fast)) {b F : Bytes} {draw : Nat} {tape : Tape} {hdr : Bytes}
    {codec : Codec} {cs : Nat} (hdraw : draw < 1024) (he : encryptHeader L ⟨c, fast⟩ draw tape = .ok (hdr, codec, cs))
    (hF : F = Spec.file codec.crypto codec.payloadKey hdr cs b) (hmax : hdr.length ≤ Spec.maxHeader)
    {p2 : Start} {occs2 : List Occ} {t2 : Term} {S : List Credential} (ha2 : Asked p2 occs2 t2 (.decrypt S)) {G : Bytes}
    (hG : DecryptionOf L S F G) (hw : HeaderDetectsWrongCredentials codec.crypto hdr c S)
    (hsat : c.satisfied (heldBy codec.crypto S) = true) : G = b := by
  obtain ⟨flt, hG⟩ := hG
  exact ((decrypt_layout hL (opts := ⟨c, fast⟩) (asked_wf ha he) hdraw he hF hmax (asked_usable ha2) hw hsat hG).2 _ rfl).2 rfl

/-- C84: a run of the program that encrypts files, then a run that decrypts one of the encrypted files, here or elsewhere (both
without `--force`, both with exit status 0): the decrypted file has the original content, if the credentials given satisfy the
tree that was asked for. (That a wrong key is noticed is stated for the header and the keys in question.) -/
theorem program_round_trip (p1 p2 : Start) (hL : p1.lib.Lawful) (hlib : p2.lib = p1.lib) (hwf1 : p1.fs.WF) (hwf2 : p2.fs.WF)
    (occs1 occs2 : List Occ) (free1 free2 : List Arg)
    (hc1 : ConvertsFiles p1 .encrypt occs1 free1) (hf1 : ¬ Given occs1 .force) (hun1 : NoChain p1 .encrypt occs1 free1)
    (hc2 : ConvertsFiles p2 .decrypt occs2 free2) (hf2 : ¬ Given occs2 .force) (hun2 : NoChain p2 .decrypt occs2 free2)
    (m1 m2 : Moment) (h1 : Reaches p1 m1) (hx1 : m1.exit = some 0) (h2 : Reaches p2 m2) (hx2 : m2.exit = some 0)
    (a : Arg) (ha : a ∈ free1) (b : Bytes) (hb : p1.fs.holds a b) :
    ∃ c fast t1 ext1 q F draw tape hdr codec cs, Asked p1 occs1 t1 (.encrypt c fast) ∧ SuffixOf occs1 ext1 ∧
      OutputName false ext1 a .encrypt (some q) ∧ m1.fs.holds q F ∧
      encryptHeader p1.lib ⟨c, fast⟩ draw tape = .ok (hdr, codec, cs) ∧
      ∀ q' ∈ free2, p2.fs.holds q' F →
        ∃ S t2 ext2 r, Asked p2 occs2 t2 (.decrypt S) ∧ SuffixOf occs2 ext2 ∧ OutputName false ext2 q' .decrypt (some r) ∧
          (HeaderDetectsWrongCredentials codec.crypto hdr c S → c.satisfied (heldBy codec.crypto S) = true →
            m2.fs.holds r b) := by
  obtain ⟨d1, t1, ext1, hd1, ha1, he1, hall1⟩ := files_are_converted p1 hL hwf1 _ _ _ hc1 hf1 hun1 m1 h1 hx1
  obtain ⟨d2, t2, ext2, hd2, ha2, he2, hall2⟩ := files_are_converted p2 (hlib ▸ hL) hwf2 _ _ _ hc2 hf2 hun2 m2 h2 hx2
  cases d1 with
  | decrypt => cases hd1
  | encrypt c fast =>
    cases d2 with
    | encrypt => cases hd2
    | decrypt S =>
      obtain ⟨q, F, ho, hF, draw, tape, hdr, codec, cs, hdraw, he, hlay, hmax⟩ := hall1 a ha b hb
      refine ⟨c, fast, t1, ext1, q, F, draw, tape, hdr, codec, cs, ha1, he1, ho, hF, he, fun q' hq' hh => ?_⟩
      obtain ⟨r, G, hor, hG, hres⟩ := hall2 q' hq' F hh
      refine ⟨S, t2, ext2, r, ha2, he2, hor, fun hw hsat => ?_⟩
      rw [ResultOf, hlib] at hres
      rwa [decryption_of_encryption hL ha1 hdraw he hlay hmax ha2 hres hw hsat] at hG

/-- C84: the same through standard output and standard input. -/
theorem program_pipe_round_trip (p1 p2 : Start) (hL : p1.lib.Lawful) (hlib : p2.lib = p1.lib)
    (occs1 occs2 : List Occ) (free1 free2 : List Arg)
    (hc1 : ConvertsStream p1 .encrypt occs1 free1) (hc2 : ConvertsStream p2 .decrypt occs2 free2)
    (m1 m2 : Moment) (h1 : Reaches p1 m1) (hx1 : m1.exit = some 0) (h2 : Reaches p2 m2) (hx2 : m2.exit = some 0)
    (hstdin : free2 = [] ∨ free2 = [['-']]) :
    ∃ c fast t1 b draw tape hdr codec cs S t2, Asked p1 occs1 t1 (.encrypt c fast) ∧ Asked p2 occs2 t2 (.decrypt S) ∧
      (free1 = [] ∨ free1 = [['-']] → t1.stdin = b.map .byte) ∧
      (∀ a ino, free1 = [a] → a ≠ ['-'] → p1.fs.openRead a = some (.file ino) → b = p1.fs.content ino) ∧
      encryptHeader p1.lib ⟨c, fast⟩ draw tape = .ok (hdr, codec, cs) ∧
      (t2.stdin = m1.stdout.map .byte → HeaderDetectsWrongCredentials codec.crypto hdr c S →
        c.satisfied (heldBy codec.crypto S) = true → m2.stdout = b) := by
  obtain ⟨-, d1, t1, b, hd1, ha1, hr1, hi1, hi1'⟩ := stream_is_converted p1 hL _ _ _ hc1 m1 h1 hx1
  obtain ⟨-, d2, t2, i2, hd2, ha2, hr2, hi2, -⟩ := stream_is_converted p2 (hlib ▸ hL) _ _ _ hc2 m2 h2 hx2
  cases d1 with
  | decrypt => cases hd1
  | encrypt c fast =>
    cases d2 with
    | encrypt => cases hd2
    | decrypt S =>
      obtain ⟨draw, tape, hdr, codec, cs, hdraw, he, hlay, hmax⟩ := hr1
      refine ⟨c, fast, t1, b, draw, tape, hdr, codec, cs, S, t2, ha1, ha2, hi1, hi1', he, fun hpipe hw hsat => ?_⟩
      rw [ResultOf, hlib] at hr2
      have : i2 = m1.stdout := by
        have := (hi2 hstdin).symm.trans hpipe
        exact List.map_injective_iff.mpr (fun x y h => by cases h; rfl) this
      subst this
      exact decryption_of_encryption hL ha1 hdraw he hlay hmax ha2 hr2 hw hsat

/-- C84: encrypted as a file, decrypted to standard output: from standard input, to which the encrypted file is sent, or from a file
that has its content. -/
theorem program_file_to_pipe_round_trip (p1 p2 : Start) (hL : p1.lib.Lawful) (hlib : p2.lib = p1.lib) (hwf1 : p1.fs.WF)
    (occs1 occs2 : List Occ) (free1 free2 : List Arg)
    (hc1 : ConvertsFiles p1 .encrypt occs1 free1) (hf1 : ¬ Given occs1 .force) (hun1 : NoChain p1 .encrypt occs1 free1)
    (hc2 : ConvertsStream p2 .decrypt occs2 free2)
    (m1 m2 : Moment) (h1 : Reaches p1 m1) (hx1 : m1.exit = some 0) (h2 : Reaches p2 m2) (hx2 : m2.exit = some 0)
    (a : Arg) (ha : a ∈ free1) (b : Bytes) (hb : p1.fs.holds a b) :
    ∃ c fast t1 ext1 q F draw tape hdr codec cs S t2, Asked p1 occs1 t1 (.encrypt c fast) ∧ SuffixOf occs1 ext1 ∧
      OutputName false ext1 a .encrypt (some q) ∧ m1.fs.holds q F ∧
      encryptHeader p1.lib ⟨c, fast⟩ draw tape = .ok (hdr, codec, cs) ∧ Asked p2 occs2 t2 (.decrypt S) ∧
      ((free2 = [] ∨ free2 = [['-']]) ∧ t2.stdin = F.map .byte ∨
          (∃ q', free2 = [q'] ∧ q' ≠ ['-'] ∧ p2.fs.holds q' F) →
        HeaderDetectsWrongCredentials codec.crypto hdr c S → c.satisfied (heldBy codec.crypto S) = true → m2.stdout = b) := by
  obtain ⟨d1, t1, ext1, hd1, ha1, he1, hall1⟩ := files_are_converted p1 hL hwf1 _ _ _ hc1 hf1 hun1 m1 h1 hx1
  obtain ⟨-, d2, t2, i2, hd2, ha2, hr2, hi2, hi2'⟩ := stream_is_converted p2 (hlib ▸ hL) _ _ _ hc2 m2 h2 hx2
  cases d1 with
  | decrypt => cases hd1
  | encrypt c fast =>
    cases d2 with
    | encrypt => cases hd2
    | decrypt S =>
      obtain ⟨q, F, ho, hF, draw, tape, hdr, codec, cs, hdraw, he, hlay, hmax⟩ := hall1 a ha b hb
      refine ⟨c, fast, t1, ext1, q, F, draw, tape, hdr, codec, cs, S, t2, ha1, he1, ho, hF, he, ha2, fun hin hw hsat => ?_⟩
      rw [ResultOf, hlib] at hr2
      have : i2 = F := by
        rcases hin with ⟨hstdin, hpipe⟩ | ⟨q', hq, hq', ino, hent, hcont⟩
        · exact List.map_injective_iff.mpr (fun x y h => by cases h; rfl) ((hi2 hstdin).symm.trans hpipe)
        · rw [← hcont]
          exact hi2' q' ino hq hq' (by simp [Filesystem.FS.openRead, Filesystem.FS.follow, hent])
      subst this
      exact decryption_of_encryption hL ha1 hdraw he hlay hmax ha2 hr2 hw hsat

/-- C84: encrypted to standard output, which became a file (here or elsewhere) that is then decrypted as a file. -/
theorem program_pipe_to_file_round_trip (p1 p2 : Start) (hL : p1.lib.Lawful) (hlib : p2.lib = p1.lib) (hwf2 : p2.fs.WF)
    (occs1 occs2 : List Occ) (free1 free2 : List Arg) (hc1 : ConvertsStream p1 .encrypt occs1 free1)
    (hc2 : ConvertsFiles p2 .decrypt occs2 free2) (hf2 : ¬ Given occs2 .force) (hun2 : NoChain p2 .decrypt occs2 free2)
    (m1 m2 : Moment) (h1 : Reaches p1 m1) (hx1 : m1.exit = some 0) (h2 : Reaches p2 m2) (hx2 : m2.exit = some 0)
    (q : Arg) (hq : q ∈ free2) (hfile : p2.fs.holds q m1.stdout) :
    ∃ c fast t1 b draw tape hdr codec cs S t2 ext2 r, Asked p1 occs1 t1 (.encrypt c fast) ∧ Asked p2 occs2 t2 (.decrypt S) ∧
      (free1 = [] ∨ free1 = [['-']] → t1.stdin = b.map .byte) ∧
      (∀ a ino, free1 = [a] → a ≠ ['-'] → p1.fs.openRead a = some (.file ino) → b = p1.fs.content ino) ∧
      encryptHeader p1.lib ⟨c, fast⟩ draw tape = .ok (hdr, codec, cs) ∧
      SuffixOf occs2 ext2 ∧ OutputName false ext2 q .decrypt (some r) ∧
      (HeaderDetectsWrongCredentials codec.crypto hdr c S → c.satisfied (heldBy codec.crypto S) = true → m2.fs.holds r b) := by
  obtain ⟨-, d1, t1, b, hd1, ha1, hr1, hi1, hi1'⟩ := stream_is_converted p1 hL _ _ _ hc1 m1 h1 hx1
  obtain ⟨d2, t2, ext2, hd2, ha2, he2, hall2⟩ := files_are_converted p2 (hlib ▸ hL) hwf2 _ _ _ hc2 hf2 hun2 m2 h2 hx2
  cases d1 with
  | decrypt => cases hd1
  | encrypt c fast =>
    cases d2 with
    | encrypt => cases hd2
    | decrypt S =>
      obtain ⟨draw, tape, hdr, codec, cs, hdraw, he, hlay, hmax⟩ := hr1
      obtain ⟨r, G, hor, hG, hres⟩ := hall2 q hq _ hfile
      refine ⟨c, fast, t1, b, draw, tape, hdr, codec, cs, S, t2, ext2, r, ha1, ha2, hi1, hi1', he, he2, hor, fun hw hsat => ?_⟩
      rw [ResultOf, hlib] at hres
      rwa [decryption_of_encryption hL ha1 hdraw he hlay hmax ha2 hres hw hsat] at hG

/-- C84: the name comes back as well, for a plain suffix and a name that does not end with a dot. -/
theorem program_name_round_trip (a dir name ext q r : Arg) (force force' : Bool) (hn : Spec.Named a dir name)
    (hdot : name.getLast? ≠ some '.') (hext : ext ≠ []) (hext1 : '.' ∉ ext) (hext2 : '/' ∉ ext)
    (hq : OutputName force ext a .encrypt (some q)) (hr : OutputName force' ext q .decrypt (some r)) : r = dir ++ name := by
  have h1 := outputName_determined hq
  have h2 := outputName_determined hr
  dsimp only at h1 h2
  have hacc : force = true ∨ ¬ Spec.HasExtension name ext := by
    by_contra hc
    have hc := not_or.mp hc
    have hf : force = false := by simpa using hc.1
    subst hf
    obtain ⟨e, he⟩ := (encrypted_name_refused_iff a dir name ext hn hext).mpr (not_not.mp hc.2)
    rw [he] at h1
    cases h1
  obtain ⟨out, ho1, -, -, ho2⟩ := decrypt_restores_name a dir name ext force hn hdot hext hext1 hext2 hacc
  rw [ho1] at h1
  cases h1
  rw [ho2] at h2
  exact Option.some.inj h2

/-! ## C86 -/

/-- What becomes of an entry of a directory in a run without `--force`: it is kept, or it was the place of an input that was
converted. -/
private theorem entry_kept (p : Start) (hwf : p.fs.WF) (occs : List Occ) (free : List Arg) (ht : Typed 0 p.args occs free)
    (hf : ¬ Given occs .force) (m : Moment) (h : Reaches p m) :
    m.fs.loc = p.fs.loc ∧ (∀ ino, ino < p.fs.nextIno → m.fs.content ino = p.fs.content ino) ∧
    ∀ n node, p.fs.entry n = some node → m.fs.entry n = some node ∨
      ∃ streams policy d ui ls st a, p.parse = (.ok (.cryptStreams streams policy false d), ui) ∧
        Run (p.config streams policy false d ui) (State.start (p.config streams policy false d ui) p.fs) ls st ∧ m.fs = st.fs ∧
        p.fs.loc a = n ∧ .inputDeleted a ∈ ls := by
  have same : ∀ fs : FS, fs = p.fs → fs.loc = p.fs.loc ∧ (∀ ino, ino < p.fs.nextIno → fs.content ino = p.fs.content ino) ∧
    ∀ n node, p.fs.entry n = some node → fs.entry n = some node ∨
      ∃ streams policy d ui ls st a, p.parse = (.ok (.cryptStreams streams policy false d), ui) ∧
        Run (p.config streams policy false d ui) (State.start (p.config streams policy false d ui) p.fs) ls st ∧ fs = st.fs ∧
        p.fs.loc a = n ∧ Label.inputDeleted a ∈ ls := by
    rintro fs rfl
    exact ⟨rfl, fun _ _ => rfl, fun n node hn => .inl hn⟩
  cases h with
  | start => exact same _ rfl
  | refused => exact same _ rfl
  | parsePanic => exact same _ rfl
  | keygenFails => exact same _ rfl
  | help ui m hp h => cases h <;> exact same _ rfl
  | version ui m hp h => cases h <;> exact same _ rfl
  | keygen streams force ui C seeds hp hC hlen =>
    obtain rfl : force = false := by
      rw [← Bool.not_eq_true, (keypair_paths _ _ _ _ _ _ _ ht _ _ hp).2]; exact hf
    have hg := GenKeys.genPairs_grow p.sha512 (streams.zip (seeds.map C.keypair)).length 0 (streams.zip (seeds.map C.keypair))
      ⟨ui.term, p.fs, [], p.fates, []⟩
    rw [keygenEnd_fs]
    exact ⟨hg.loc, hg.content, fun n node hn => .inl (hg.entry n node hn)⟩
  | keygenDuring streams force ui C seeds fs stdout hp hC hlen hm =>
    obtain rfl : force = false := by
      rw [← Bool.not_eq_true, (keypair_paths _ _ _ _ _ _ _ ht _ _ hp).2]; exact hf
    have hg := (GenKeys.moment_step (w := ⟨ui.term, p.fs, [], p.fates, []⟩) hwf (.inr (.inl hm))).1
    exact ⟨hg.loc, hg.content, fun n node hn => .inl (hg.entry n node hn)⟩
  | crypt streams policy force d ui ls st hp hr =>
    obtain rfl : force = false := by
      rw [← Bool.not_eq_true, (flags_reach_command _ _ _ _ _ _ _ ht _ _ _ _ hp).1]; exact hf
    obtain ⟨hk, hold⟩ := existing_files_untouched (cfg := p.config streams policy false d ui) rfl hwf hr
    obtain ⟨c, hc⟩ := inv_run (cfg := p.config streams policy false d ui) rfl hwf hr
    refine ⟨hc.base.loc, hold, fun n node hn => ?_⟩
    rcases hk n node hn with h1 | ⟨-, a, -, -, -, -, hdel, hl, -⟩
    · exact .inl h1
    · exact .inr ⟨streams, policy, d, ui, ls, st, a, hp, hr, rfl, hl, hdel⟩

/-- C86: without `--force`, whatever the arguments and whatever happens, at every moment: every file that was there is there with
its content; or it was one of the arguments of a conversion, the inputs were not to be kept, and the complete result of
converting it is there. (Where an output would be at the place of an input, see C34.) -/
theorem nothing_is_lost (p : Start) (hL : p.lib.Lawful) (hwf : p.fs.WF) (occs : List Occ) (free : List Arg)
    (ht : Typed 0 p.args occs free) (hf : ¬ Given occs .force) (hun : ∀ dir, LastMode occs (.crypt dir) → NoChain p dir occs free)
    (m : Moment) (h : Reaches p m) (a : Arg) (b : Bytes) (hb : p.fs.holds a b) :
    m.fs.holds a b ∨ (¬ Given occs .keepInputs ∧ ¬ Given occs .stream ∧ ∃ dir d t ext, LastMode occs (.crypt dir) ∧ d.dir = dir ∧
      Asked p occs t d ∧ SuffixOf occs ext ∧ ∃ a' ∈ free, p.fs.loc a' = p.fs.loc a ∧
        ∃ q F, OutputName false ext a' dir (some q) ∧ m.fs.holds q F ∧ ResultOf p.lib b F d) := by
  obtain ⟨hloc, hold, hent⟩ := entry_kept p hwf occs free ht hf m h
  obtain ⟨ino, he, rfl⟩ := hb
  rcases hent _ _ he with h1 | ⟨streams, policy, d, ui, ls, st, a1, hp, hr, hfs, hl, hdel⟩
  · exact .inl ⟨ino, by rw [hloc]; exact h1, hold _ (hwf _ _ he)⟩
  right
  obtain ⟨c, hc⟩ := inv_run (cfg := p.config streams policy false d ui) rfl hwf hr
  obtain ⟨hcon, s, dir, i, o, hm, hsi⟩ := hc.deleted a1 hdel
  obtain ⟨hmem, hal, hso, f, hconv⟩ := hc.events s dir i o hm
  have hib := hc.origin s dir i o a1 ino hm hsi (by rw [hl]; exact he)
  have hflags := flags_reach_command _ _ _ _ _ _ _ ht _ _ _ _ hp
  have hkeep : ¬ Given occs .keepInputs := by
    rw [← hflags.2.1]
    rintro rfl
    rcases hcon with hcon | ⟨hcon, -⟩ <;> cases hcon
  rcases streams_selected _ _ _ _ _ _ _ ht _ _ _ _ hp with ⟨-, s1, rfl, -, hin⟩ | ⟨hns, hsome, -, ext, he1, he2, hall⟩
  · rw [show s = s1 from List.mem_singleton.mp hmem] at hsi
    rcases hin with ⟨hin, -⟩ | ⟨x, hin, -⟩ <;> (rw [hin] at hsi; cases hsi)
  have hmode : LastMode occs (.crypt d.dir) := by
    have := last_mode_wins p.env p.args p.ttys p.ui ui occs free ht _ hp
    rw [if_neg] at this
    · cases d <;> exact this
    · rintro ⟨h0, -⟩
      rw [h0] at ht
      cases ht
      exact hsome rfl
  obtain ⟨a2, ha2, hi2, o2, hon, hoo⟩ := forall₂_right hall hmem
  rw [hi2] at hsi
  cases hsi
  refine ⟨hkeep, hns, d.dir, d, ui.term, ext, hmode, rfl, asked_of ht hp, he1, a1, ha2, hl, ?_⟩
  cases o2 with
  | none => exact absurd hoo hso
  | some q =>
    refine ⟨q, o, hon, ?_, result_of hL hal (hib ▸ hconv)⟩
    rw [hfs]
    rcases hc.base.facts (p.fs.loc q) o ⟨s, dir, i, o, hm, .inr ⟨q, hoo, rfl, rfl⟩⟩ with ⟨ino', e1, e2, -⟩ | ⟨x, hx, hxq⟩
    · exact ⟨ino', by rw [hc.base.loc]; exact e1, e2⟩
    · obtain ⟨-, s3, dir3, i3, o3, hm3, hi3⟩ := hc.deleted x hx
      obtain ⟨a3, ha3, hi4, -⟩ := forall₂_right hall (hc.events _ _ _ _ hm3).1
      rw [hi4] at hi3
      cases hi3
      exact absurd hxq (hun _ hmode _ ha3 _ ha2 false ext q he1 hon)

/-- C86: without `--force`, at every moment, whatever is not the place of an argument is as it was: files, links, directories, and
also hard links to the arguments. With `--keep-inputs`, key generation, or standard output as the output, this holds for everything. -/
theorem other_entries_stay (p : Start) (hwf : p.fs.WF) (occs : List Occ) (free : List Arg)
    (ht : Typed 0 p.args occs free) (hf : ¬ Given occs .force) (m : Moment) (h : Reaches p m) (n : Filesystem.Name) (node : Node)
    (hn : p.fs.entry n = some node)
    (hother : (∀ a ∈ free, p.fs.loc a ≠ n) ∨ Given occs .keepInputs ∨ Given occs .stream ∨ LastMode occs .generateKeypair) :
    m.fs.entry n = some node ∧ ∀ ino, node = .file ino → m.fs.content ino = p.fs.content ino := by
  obtain ⟨hloc, hold, hent⟩ := entry_kept p hwf occs free ht hf m h
  refine ⟨?_, fun ino hi => hold _ (hwf _ _ (hi ▸ hn))⟩
  rcases hent _ _ hn with h1 | ⟨streams, policy, d, ui, ls, st, a1, hp, hr, hfs, hl, hdel⟩
  · exact h1
  exfalso
  obtain ⟨c, hc⟩ := inv_run (cfg := p.config streams policy false d ui) rfl hwf hr
  obtain ⟨hcon, s, dir, i, o, hm, hsi⟩ := hc.deleted a1 hdel
  obtain ⟨hmem, -⟩ := hc.events s dir i o hm
  have hflags := flags_reach_command _ _ _ _ _ _ _ ht _ _ _ _ hp
  rcases streams_selected _ _ _ _ _ _ _ ht _ _ _ _ hp with ⟨-, s1, rfl, -, hin⟩ | ⟨hns, hsome, -, ext, he1, he2, hall⟩
  · rw [show s = s1 from List.mem_singleton.mp hmem] at hsi
    rcases hin with ⟨hin, -⟩ | ⟨x, hin, -⟩ <;> (rw [hin] at hsi; cases hsi)
  rcases hother with ho | ho | ho | ho
  · obtain ⟨a2, ha2, hi2, -⟩ := forall₂_right hall hmem
    rw [hi2] at hsi
    cases hsi
    exact ho _ ha2 hl
  · rw [← hflags.2.1] at ho
    subst ho
    rcases hcon with hcon | ⟨hcon, -⟩ <;> cases hcon
  · exact hns ho
  · have := last_mode_wins p.env p.args p.ttys p.ui ui occs free ht _ hp
    rw [if_neg] at this
    · have := last_mode_unique _ _ _ this ho
      cases d <;> cases this
    · rintro ⟨h0, -⟩
      rw [h0] at ht
      cases ht
      exact hsome rfl

/-! ## C97 -/

/-- C97: what reading the command line (and asking for the passwords) does to the settings of a terminal that does what it is told. -/
theorem command_line_settings (p : Start) (ho : ∀ f ∈ p.tcs, f.get = true ∧ f.set = true) :
    p.parse.2.term.tty = p.tty ∨ Spec.EchoOn p.tty p.parse.2.term.tty := by
  obtain ⟨v, hf, -⟩ := parseCommandLine_frame p.env p.args p.ttys p.ui
  exact hf.tty ho

/-- What the program does to the settings of a terminal that does what it is told, whatever happens: nothing, or switching the echo on. -/
theorem program_settings (p : Start) (ho : ∀ f ∈ p.tcs, f.get = true ∧ f.set = true) (m : Moment) (h : Reaches p m) (t : Term)
    (ht : m.term = some t) : t.tty = p.tty ∨ Spec.EchoOn p.tty t.tty := by
  have hparse : ∀ {r : Res Command} {ui : Ui}, p.parse = (r, ui) → ui.term.tty = p.tty ∨ Spec.EchoOn p.tty ui.term.tty := by
    intro r ui hp
    have := command_line_settings p ho
    rw [hp] at this
    exact this
  have herr : ∀ (t : Term) (n e : List Char), (printError t n e).2.tty = t.tty := GenKeys.printError_tty
  have hgen := fun s f (pairs : List (KeyPairOutputStreams × Bytes × Bytes)) w => GenKeys.genPairs_tty s f pairs.length pairs 0 w
  cases h with
  | start => cases ht
  | refused e ui hp => cases ht; rw [herr]; exact hparse hp
  | parsePanic ui hp => cases ht; exact hparse hp
  | crypt => cases ht
  | keygen streams force ui C seeds hp hi hs =>
    have h1 := hgen p.sha512 force (streams.zip (seeds.map C.keypair)) ⟨ui.term, p.fs, [], p.fates, []⟩
    rw [GenKeys.generateKeyPairFiles] at ht
    generalize GenKeys.genPairs p.sha512 force _ 0 (streams.zip (seeds.map C.keypair)) ⟨ui.term, p.fs, [], p.fates, []⟩ = r at h1 ht
    obtain ⟨r, w⟩ := r
    have h2 : t.tty = w.term.tty := by
      unfold keygenEnd at ht
      split at ht <;> rename_i heq <;> cases heq <;> cases ht
      · rfl
      · rfl
      · exact herr _ _ _
      · rfl
    rw [h2, h1]
    exact hparse hp
  | keygenDuring => cases ht
  | keygenFails streams force ui e hp hi => cases ht; rw [herr]; exact hparse hp
  | help ui m hp hpr =>
    cases hpr with
    | all => cases ht; exact hparse hp
    | part b hb => cases ht; rw [herr]; exact hparse hp
  | version ui m hp hpr =>
    cases hpr with
    | all => cases ht; exact hparse hp
    | part b hb => cases ht; rw [herr]; exact hparse hp

/-- C97, full statement: whenever the program ends, the settings of the terminal are those it found. Proved for terminals that do what
they are told and that have their echo on; missing are the other terminals, for which it is false: `password_switches_echo_on`,
`password_ruins_settings`. (Conversions are modelled without the terminal. They begin with the settings that the command line left,
the first part of the conclusion, and ask only yes-no questions, `yes_no_keeps_settings`.) -/
theorem program_keeps_settings_partial (p : Start) (ho : ∀ f ∈ p.tcs, f.get = true ∧ f.set = true) (he : p.tty.echoes = true) :
    p.parse.2.term.tty = p.tty ∧ ∀ m, Reaches p m → ∀ t, m.term = some t → t.tty = p.tty := by
  constructor
  · rcases command_line_settings p ho with h | h
    · exact h
    · exact h.eq he
  · intro m h t ht
    rcases program_settings p ho m h t ht with h | h
    · exact h
    · exact h.eq he

end Rypt.Props
