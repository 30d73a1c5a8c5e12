import Verif.Proofs.Crashes
import Verif.Props.CommandLinePanic
import Verif.Props.ProgramSamples
import Verif.Props.SlowCrash

/-! Property C98: what makes the program crash (exit status 101). -/

namespace Rypt.Props

open Getopts Cli UI Filesystem CryptStreams HeaderCrypto Program Spec KeyText

/-- The keys that are generated are as libsodium makes them: the second half of a private key is the public key. -/
def KeysMatch (L : CryptoLib) : Prop :=
  ∀ C seed, L.instantiate .chaCha20Poly1305Ietf = .ok C → (C.keypair seed).2.drop 32 = (C.keypair seed).1

/-- The header of this file crashes its decryption with the credentials `S`: it has one of the two flaws of C56. -/
def FlawedFile (L : CryptoLib) (S : List Credential) (file : Bytes) : Prop :=
  ∃ hdr body C hd ck, file = Spec.frame hdr ++ body ∧ Proto.decodeHeader hdr = some hd ∧
    cryptosysFromProto L hd.cryptoFamily = .ok C ∧ hd.payloadKey = some ck ∧
    FlawedGroup (S.map (tryOpen C hd.ephemeralPk)) ck

/-- The clock runs backwards, or numbers come near 64 bits. -/
def Unmeasurable (p : Start) (input : Bytes) : Prop :=
  2 ^ 64 ≤ input.length * 1000 ∨
    ∃ start calls, p.histories start calls ∧ (¬ ClockForward start calls ∨ 2 ^ 64 ≤ (lastInstant start calls - start) / 1000000)

/-- How many seconds the progress display waits at least (C107): to encrypt `n` bytes, `n` seconds, but one for no bytes, and twelve
days for a megabyte or more; to decrypt, 16 seconds. -/
def patience (dir : CryptDirection) (n : Nat) : Nat :=
  match dir with
  | .encrypt => max 1 (min n 1044480)
  | .decrypt => 16

/-- The clock runs backwards, or numbers come near 64 bits, or updates still come when the patience is exhausted. -/
def Stalls (p : Start) (dir : CryptDirection) (input : Bytes) : Prop :=
  2 ^ 64 ≤ input.length * 1000 ∨
    ∃ start calls, p.histories start calls ∧
      (¬ ClockForward start calls ∨ 1000 * patience dir input.length < (lastInstant start calls - start) / 1000000)

/-- The key file crash of C73. -/
def CrashingKeys (p : Start) (occs : List Occ) : Prop :=
  ∃ path pos force, (⟨.privateKey, pos, some path⟩ : Occ) ∈ occs ∧ (force = true ↔ Given occs .force) ∧
    CrashingKeyFile p.sha512 (!force) (p.env.readFile path)

/-- C98: only encryption and decryption crash; help, the version, key generation and a command line that is refused do not. -/
theorem only_conversions_crash (p : Start) (hk : KeysMatch p.lib) (m : Moment) (h : Reaches p m) (hx : m.exit = some 101) :
    ∃ dir occs free, Typed 0 p.args occs free ∧ LastMode occs (.crypt dir) ∧
      (CrashingKeys p occs ∧ dir = .decrypt ∧ m.fs = p.fs ∧ m.stdout = [] ∨
        ∃ streams policy force d ui ls st, p.parse = (.ok (.cryptStreams streams policy force d), ui) ∧ d.dir = dir ∧
          ¬ (p.args = [] ∧ p.ttys.stdout = true) ∧
          Run (p.config streams policy force d ui) (State.start (p.config streams policy force d ui) p.fs) ls st ∧
          st.pc = .panicked ∧ m.fs = st.fs ∧ m.stdout = st.stdout) := by
  cases h with
  | start => cases hx
  | refused => cases hx
  | keygenFails => cases hx
  | keygenDuring => cases hx
  | parsePanic ui hp =>
    obtain ⟨occs, free, path, pos, force, h1, h2, h3, h4, h5⟩ :=
      command_line_panic_cause p.env p.args p.ttys p.ui (by rw [show parseCommandLine p.env p.args p.ttys p.ui = p.parse from rfl, hp])
    exact ⟨.decrypt, occs, free, h1, h2, .inl ⟨⟨path, pos, force, h3, h4, h5⟩, rfl, rfl, rfl⟩⟩
  | crypt streams policy force d ui ls st hp hr =>
    obtain ⟨m, hm, -⟩ := accepted_of hp
    have ht := ((Getopts.parse_iff p.args m).mp hm).1
    have hmode := last_mode_wins p.env p.args p.ttys p.ui ui _ _ ht _ hp
    have hpc : st.pc = .panicked := by
      cases hpc : st.pc with
      | panicked => rfl
      | done ok => rw [hpc] at hx; cases ok <;> cases hx
      | _ => rw [hpc] at hx; cases hx
    split at hmode
    · cases d <;> cases hmode
    · rename_i hne
      refine ⟨d.dir, m.vals, m.free, ht, by cases d <;> exact hmode, .inr ⟨streams, policy, force, d, ui, ls, st, hp, rfl, hne, hr, hpc, rfl, rfl⟩⟩
  | keygen streams force ui C seeds hp hC hlen =>
    exfalso
    have hnp := GenKeys.genPairs_no_panic p.sha512 force (streams.zip (seeds.map C.keypair)).length (streams.zip (seeds.map C.keypair))
      (by
        intro q hq
        obtain ⟨seed, -, he⟩ := List.mem_map.mp (List.of_mem_zip (a := q.1) (b := q.2) hq).2
        rw [← he]
        exact hk C seed hC) 0 ⟨ui.term, p.fs, [], p.fates, []⟩
    rw [show GenKeys.generateKeyPairFiles p.sha512 force (streams.zip (seeds.map C.keypair)) ⟨ui.term, p.fs, [], p.fates, []⟩ =
      GenKeys.genPairs p.sha512 force (streams.zip (seeds.map C.keypair)).length 0 (streams.zip (seeds.map C.keypair))
        ⟨ui.term, p.fs, [], p.fates, []⟩ from rfl] at hx
    revert hnp hx
    generalize GenKeys.genPairs _ _ _ _ _ _ = r
    obtain ⟨r, w⟩ := r
    intro hx hnp
    match r with
    | .ok [] => cases hx
    | .ok (_ :: _) => cases hx
    | .err _ => cases hx
    | .panic => exact hnp rfl
  | help ui m hp hm => cases hm <;> cases hx
  | version ui m hp hm => cases hm <;> cases hx

private theorem header_cause {p : Start} (hL : p.lib.Lawful) (hi : ∀ alg, p.lib.instantiate alg ≠ .panic) {occs : List Occ} {t : Term}
    {d : DirectionOpts} (ha : Asked p occs t d) {dir : CryptFile.Direction} (hal : (dirOpts d).allows dir) {input w : Bytes} {flt : Bool}
    (h : CryptFile.Conversion p.lib input dir ⟨w, some .panic, flt⟩) :
    (∃ c fast, d = .encrypt c fast ∧ ¬ c.NoWrap) ∨ ∃ S, d = .decrypt S ∧ FlawedFile p.lib S input := by
  obtain ⟨h1, h2⟩ := conversion_panic_cause hL h
  cases d with
  | encrypt c fast =>
    cases dir with
    | decrypt S => exact absurd hal (by simp [dirOpts, DirOpts.allows])
    | encrypt opts draw tape =>
      obtain ⟨rfl, hdraw⟩ := hal
      refine .inl ⟨c, fast, rfl, fun hw => ?_⟩
      obtain ⟨typed, v, force, -, -, -, hd⟩ := ha
      exact encryptHeader_no_panic hi (describes_wf hd hw) draw tape (h1 _ _ _ rfl hdraw)
  | decrypt S =>
    cases dir with
    | encrypt _ _ _ => exact absurd hal (by simp [dirOpts, DirOpts.allows])
    | decrypt S' =>
      obtain rfl : S' = S := hal
      obtain ⟨hdr, body, he, hp⟩ := h2 _ rfl
      obtain ⟨C, hd, ck, e1, e2, e3, e4⟩ := hostile_header_panic_cause hi (asked_usable ha) hp
      exact .inr ⟨S', rfl, hdr, body, C, hd, ck, he, e1, e2, e3, e4⟩

/-- What the reports of a conversion say when the display crashes. -/
private theorem stalls_of {p : Start} (hL : p.lib.Lawful) {d : DirectionOpts} {cdir : CryptFile.Direction} (hal : (dirOpts d).allows cdir)
    {input w : Bytes} {flt : Bool} {start : Nat} {filesize : Option Nat} {calls : List (Nat × Nat)} (hh : p.histories start calls)
    (hsize : ∀ size, filesize = some size → size < 2 ^ 63) (h : Progress.session start filesize calls = .panic)
    (ht : CryptFile.Told p.lib input cdir ⟨w, none, flt⟩ (calls.map Prod.fst)) :
    Stalls p d.dir input ∧ (filesize = none → Unmeasurable p input) := by
  have hdraw : ∀ opts draw tape, cdir = .encrypt opts draw tape → draw < 1024 := by
    rintro opts draw tape rfl
    cases d with
    | encrypt c fast => exact hal.2
    | decrypt S => exact absurd hal (by simp [dirOpts, DirOpts.allows])
  by_cases hlen : 2 ^ 64 ≤ input.length * 1000
  · exact ⟨.inl hlen, fun _ => .inl hlen⟩
  have hbytes : totalBytes calls * 1000 < 2 ^ 64 := by
    have := (reports_add_up hL hdraw ht).1
    rw [CryptFile.totalBytes_sum]
    exact Nat.lt_of_le_of_lt (Nat.mul_le_mul_right _ this) (Nat.lt_of_not_le hlen)
  by_cases hf : ClockForward start calls
  · by_cases htime : 2 ^ 64 ≤ (lastInstant start calls - start) / 1000000
    · refine ⟨.inr ⟨start, calls, hh, .inr (Nat.lt_of_lt_of_le ?_ htime)⟩, fun _ => .inr ⟨start, calls, hh, .inr htime⟩⟩
      cases d <;> simp only [DirectionOpts.dir, patience] <;> omega
    · have hs : Plausible start filesize calls := ⟨hf, hbytes, by omega, hsize⟩
      refine ⟨.inr ⟨start, calls, hh, .inr ?_⟩, fun hn => absurd hn (progress_panic_cause _ _ _ hs h).1⟩
      cases d with
      | encrypt c fast =>
        cases cdir with
        | decrypt S => exact absurd hal (by simp [dirOpts, DirOpts.allows])
        | encrypt opts draw tape => exact encrypting_display_crash hL (hdraw _ _ _ rfl) start _ calls ht hs h
      | decrypt S =>
        cases cdir with
        | encrypt _ _ _ => exact absurd hal (by simp [dirOpts, DirOpts.allows])
        | decrypt S' => exact decrypting_display_crash hL start _ calls ht hs h
  · exact ⟨.inr ⟨start, calls, hh, .inl hf⟩, fun _ => .inr ⟨start, calls, hh, .inl hf⟩⟩

/-- C98: when a conversion of files without `--force` crashes, then one of the private key files is unfit (C73), or the share
counts of a group add up to 2^64 or more (C72), or one of the files to be decrypted has a header with one of the flaws of C56, or
the progress display lost its patience with one of the files (C107). -/
theorem file_crash_causes (p : Start) (hL : p.lib.Lawful) (hi : ∀ alg, p.lib.instantiate alg ≠ .panic) (hk : KeysMatch p.lib)
    (hwf : p.fs.WF) (dir : CryptDirection) (occs : List Occ) (free : List Arg)
    (hc : ConvertsFiles p dir occs free) (hf : ¬ Given occs .force) (hun : NoChain p dir occs free) (m : Moment) (h : Reaches p m)
    (hx : m.exit = some 101) :
    (dir = .decrypt ∧ CrashingKeys p occs) ∨
      (∃ t c fast, dir = .encrypt ∧ Asked p occs t (.encrypt c fast) ∧ ¬ c.NoWrap) ∨
      (∃ t S, dir = .decrypt ∧ Asked p occs t (.decrypt S) ∧ ∃ a ∈ free, ∃ b, p.fs.holds a b ∧ FlawedFile p.lib S b) ∨
      ∃ a ∈ free, ∃ b, p.fs.holds a b ∧ Stalls p dir b := by
  obtain ⟨ht, hl, hs, hsome, hdash⟩ := hc
  obtain ⟨dir', occs', free', ht', hl', hcase⟩ := only_conversions_crash p hk m h hx
  obtain ⟨rfl, rfl⟩ := typed_unique ht ht'
  have hdir := last_mode_unique _ _ _ hl hl'
  cases hdir
  rcases hcase with ⟨h1, h2, -⟩ | ⟨streams, policy, force, d, ui, ls, st, hp, hd, hne, hr, hpc, -, -⟩
  · exact .inl ⟨h2, h1⟩
  have hforce : force = false := by
    rw [← Bool.not_eq_true, (flags_reach_command _ _ _ _ _ _ _ ht _ _ _ _ hp).1]; exact hf
  subst hforce
  rcases streams_selected _ _ _ _ _ _ _ ht _ _ _ _ hp with ⟨h1 | h1 | h1, -⟩ | ⟨-, -, -, ext, he1, he2, hall⟩
  · exact absurd h1 hs
  · exact absurd h1 hsome
  · exact absurd h1 hdash
  rw [hd] at hall
  have hunch : (p.config streams policy false d ui).Unchained p.fs := by
    intro s1 hs1 s2 hs2 p1 q hi1 ho2
    obtain ⟨a1, ha1, hi, -⟩ := forall₂_right hall hs1
    obtain ⟨a2, ha2, -, o2, hon, hoo⟩ := forall₂_right hall hs2
    rw [hi] at hi1
    cases hi1
    rw [hoo] at ho2
    cases o2 with
    | none => cases ho2
    | some q2 =>
      cases ho2
      exact hun _ ha1 a2 ha2 false ext _ he1 hon
  obtain ⟨ls', st', s, out, sink, cdir, input, written, hr', hpc', hcause⟩ := panicked_from hr hpc
  obtain ⟨hmem, hal, hin⟩ := converting_file (cfg := p.config streams policy false d ui) rfl hwf hunch hr' hpc'
  have ha := asked_of ht hp
  rcases hcause with ⟨w, flt, hconv⟩ | ⟨start, filesize, calls, hh, -, hsize, hpan, w, flt, htold⟩
  · right
    rcases header_cause hL hi ha hal hconv with ⟨c, fast, rfl, hw⟩ | ⟨S, rfl, hfl⟩
    · exact .inl ⟨_, c, fast, hd.symm, ha, hw⟩
    · obtain ⟨a, ham, hsi, -⟩ := forall₂_right hall hmem
      exact .inr (.inl ⟨_, S, hd.symm, ha, a, ham, input, hin a hsi, hfl⟩)
  · obtain ⟨a, ham, hsi, -⟩ := forall₂_right hall hmem
    exact .inr (.inr (.inr ⟨a, ham, input, hin a hsi, hd ▸ (stalls_of hL hal hh hsize hpan htold).1⟩))

/-- C98: the same for conversions to standard output (with `--force` or not): what is read from standard input after what was typed
to prompts, or from the file that was named, has the flaw or strains the patience. For standard input the display has all patience;
it only needs a clock that does not run backwards. -/
theorem stream_crash_causes (p : Start) (hL : p.lib.Lawful) (hi : ∀ alg, p.lib.instantiate alg ≠ .panic) (hk : KeysMatch p.lib)
    (dir : CryptDirection) (occs : List Occ) (free : List Arg) (hc : ConvertsStream p dir occs free) (m : Moment) (h : Reaches p m)
    (hx : m.exit = some 101) :
    (dir = .decrypt ∧ CrashingKeys p occs) ∨
      (∃ t c fast, dir = .encrypt ∧ Asked p occs t (.encrypt c fast) ∧ ¬ c.NoWrap) ∨
      (∃ t S i, dir = .decrypt ∧ Asked p occs t (.decrypt S) ∧ FlawedFile p.lib S i ∧
        (free = [] ∨ free = [['-']] → stdinGives t.stdin i) ∧
        (∀ a ino, free = [a] → a ≠ ['-'] → p.fs.openRead a = some (.file ino) → i = p.fs.content ino)) ∨
      ∃ t d i, Asked p occs t d ∧ Stalls p dir i ∧
        (free = [] ∨ free = [['-']] → stdinGives t.stdin i ∧ Unmeasurable p i) ∧
        (∀ a ino, free = [a] → a ≠ ['-'] → p.fs.openRead a = some (.file ino) → i = p.fs.content ino) := by
  obtain ⟨ht, hl, hs, hne⟩ := hc
  obtain ⟨dir', occs', free', ht', hl', hcase⟩ := only_conversions_crash p hk m h hx
  obtain ⟨rfl, rfl⟩ := typed_unique ht ht'
  have hdir := last_mode_unique _ _ _ hl hl'
  cases hdir
  rcases hcase with ⟨h1, h2, -⟩ | ⟨streams, policy, force, d, ui, ls, st, hp, hd, hne, hr, hpc, -, -⟩
  · exact .inl ⟨h2, h1⟩
  rcases streams_selected _ _ _ _ _ _ _ ht _ _ _ _ hp with ⟨-, s, hs1, hs2, hs3⟩ | ⟨h1, h2, h3, -⟩
  · have hin' : ∀ q, s.input ≠ .file q := by
      rcases hs3 with ⟨h3, -⟩ | ⟨q, h3, -⟩ <;> (rw [h3]; simp)
    obtain ⟨ls', st', s', out, sink, cdir, input, written, hr', hpc', hcause⟩ := panicked_from hr hpc
    have hinv := (streamInv_run (cfg := p.config streams policy force d ui) hs1 hin' hs2 hr').pc
    simp only [StreamPc, hpc'] at hinv
    obtain ⟨rfl, -, -, -, -, -, hal, hread, hstd⟩ := hinv
    have ha := asked_of ht hp
    have hstd' : free = [] ∨ free = [['-']] → s'.input = .stdin := by
      intro hfree
      rcases hs3 with ⟨h3, -⟩ | ⟨q, h3, hq, hq'⟩
      · exact h3
      · rw [hq] at hfree
        rcases hfree with hfree | hfree
        · cases hfree
        · cases hfree; exact absurd rfl hq'
    have hread' : ∀ a ino, free = [a] → a ≠ ['-'] → p.fs.openRead a = some (.file ino) → input = p.fs.content ino := by
      intro a ino hfa had hopen
      rcases hs3 with ⟨-, h3⟩ | ⟨q, h3, hq, -⟩
      · rw [hfa] at h3
        rcases h3 with h3 | h3
        · cases h3
        · cases h3; exact absurd rfl had
      · rw [hfa] at hq
        cases hq
        exact hread a ino h3 hopen
    rcases hcause with ⟨w, flt, hconv⟩ | ⟨start, filesize, calls, hh, hstdin, hsize, hpan, w, flt, htold⟩
    · right
      rcases header_cause hL hi ha hal hconv with ⟨c, fast, rfl, hw⟩ | ⟨S, rfl, hfl⟩
      · exact .inl ⟨_, c, fast, hd.symm, ha, hw⟩
      · exact .inr (.inl ⟨_, S, input, hd.symm, ha, hfl, fun hfree => hstd (hstd' hfree), hread'⟩)
    · obtain ⟨h1, h2⟩ := stalls_of hL hal hh hsize hpan htold
      exact .inr (.inr (.inr ⟨_, d, input, ha, hd ▸ h1,
        fun hfree => ⟨hstd (hstd' hfree), h2 (hstdin (hstd' hfree))⟩, hread'⟩))
  · exfalso
    rcases hs with hs | hs | hs
    · exact h1 hs
    · exact h2 hs
    · exact h3 ['-'] (by rw [hs]; simp) ⟨[], [], rfl, by simp, by simp, by simp [Text.isWhitespace], by simp [Text.isWhitespace]⟩

end Rypt.Props
