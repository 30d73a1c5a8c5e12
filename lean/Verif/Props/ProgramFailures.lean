import Verif.Props.ProgramKeys
import Verif.Proofs.NewFiles

/-! Properties C89-C92: what a run of the program leaves behind when conversions fail or are cut short. -/

namespace Rypt.Props

open Getopts Cli UI Filesystem CryptStreams HeaderCrypto Program

/-! ## C89 -/

private theorem part_of {L : CryptoLib} (hL : L.Lawful) {d : DirectionOpts} {dir : CryptFile.Direction} {b w : Bytes} {r : Option (Res Unit)}
    {flt : Bool} (hal : (dirOpts d).allows dir) (hc : CryptFile.Conversion L b dir ⟨w, r, flt⟩) : PartOf L b w d := by
  cases d with
  | encrypt c fast =>
    cases dir with
    | decrypt S => exact absurd hal (by simp [dirOpts, DirOpts.allows])
    | encrypt opts draw tape =>
      obtain ⟨rfl, hdraw⟩ := hal
      rcases encryption_written hL hdraw hc with h | ⟨hdr, codec, cs, he, hm, h⟩
      · exact .inl h
      · exact .inr ⟨_, ⟨draw, tape, hdr, codec, cs, hdraw, he, rfl, hm⟩, h⟩
  | decrypt S =>
    cases dir with
    | encrypt _ _ _ => exact absurd hal (by simp [dirOpts, DirOpts.allows])
    | decrypt S' =>
      obtain rfl : S' = S := hal
      exact ⟨r, flt, hc⟩

private theorem not_empty {p : Start} {dir : CryptDirection} {occs : List Occ} {free : List Arg} (hc : ConvertsFiles p dir occs free) :
    ¬ (p.args = [] ∧ p.ttys.stdout = true) := by
  rintro ⟨h0, -⟩
  have ht := hc.typed
  rw [h0] at ht
  cases ht
  exact hc.some rfl

/-- A moment of a command that converts. -/
private theorem moment_of {p : Start} {m : Moment} (h : Reaches p m) {dir : CryptDirection} {occs : List Occ} {free : List Arg}
    (ht : Typed 0 p.args occs free) (hl : LastMode occs (.crypt dir)) (hne : ¬ (p.args = [] ∧ p.ttys.stdout = true)) :
    (m.fs = p.fs ∧ m.stdout = []) ∨ ∃ streams policy force d ui ls st, p.parse = (.ok (.cryptStreams streams policy force d), ui) ∧
      Run (p.config streams policy force d ui) (State.start (p.config streams policy force d ui) p.fs) ls st ∧
      m.fs = st.fs ∧ m.stdout = st.stdout ∧ d.dir = dir := by
  have hmode : ∀ {cmd ui}, p.parse = (.ok cmd, ui) → cmd.mode = .crypt dir := by
    intro cmd ui hp
    have := last_mode_wins p.env p.args p.ttys p.ui ui occs free ht cmd hp
    rw [if_neg hne] at this
    exact last_mode_unique _ _ _ this hl
  cases h with
  | start => exact .inl ⟨rfl, rfl⟩
  | refused => exact .inl ⟨rfl, rfl⟩
  | parsePanic => exact .inl ⟨rfl, rfl⟩
  | keygenFails => exact .inl ⟨rfl, rfl⟩
  | crypt streams policy force d ui ls st hp hr =>
    refine .inr ⟨streams, policy, force, d, ui, ls, st, hp, hr, rfl, rfl, ?_⟩
    have := hmode hp
    cases d <;> (simp [Command.mode] at this; rw [← this]; rfl)
  | keygen streams force ui C seeds hp => have := hmode hp; cases this
  | keygenDuring streams force ui C seeds _ _ hp => have := hmode hp; cases this
  | help ui m hp => have := hmode hp; cases this
  | version ui m hp => have := hmode hp; cases this

/-- C89: at every moment of a conversion of files without `--force` — whatever goes wrong, whenever it is cut short — every entry of
a directory was there before, or is a file under the name of the output of an argument and holds what a conversion of the content
of that argument, with the credentials asked for, writes up to some moment. -/
theorem new_files_are_parts (p : Start) (hL : p.lib.Lawful) (hwf : p.fs.WF) (dir : CryptDirection) (occs : List Occ) (free : List Arg)
    (hc : ConvertsFiles p dir occs free) (hf : ¬ Given occs .force) (hun : NoChain p dir occs free) (m : Moment) (h : Reaches p m)
    (n : Filesystem.Name) (node : Node) (hn : m.fs.entry n = some node) :
    p.fs.entry n = some node ∨ p.fs.entry n = none ∧ ∃ d t ext, d.dir = dir ∧ Asked p occs t d ∧ SuffixOf occs ext ∧
      (∀ ext', SuffixOf occs ext' → ext' = ext) ∧ ∃ a ∈ free, ∃ b q w, p.fs.holds a b ∧ OutputName false ext a dir (some q) ∧
        p.fs.loc q = n ∧ m.fs.holds q w ∧ PartOf p.lib b w d := by
  rcases moment_of h hc.typed hc.mode (not_empty hc) with ⟨hfs, -⟩ | ⟨streams, policy, force, d, ui, ls, st, hp, hr, hfs, -, hd⟩
  · exact .inl (by rw [← hfs]; exact hn)
  obtain rfl : force = false := by
    rw [← Bool.not_eq_true, (flags_reach_command _ _ _ _ _ _ _ hc.typed _ _ _ _ hp).1]; exact hf
  rcases streams_selected _ _ _ _ _ _ _ hc.typed _ _ _ _ hp with ⟨h1 | h1 | h1, -⟩ | ⟨-, -, -, ext, he1, he2, hall⟩
  · exact absurd h1 hc.stream
  · exact absurd h1 hc.some
  · exact absurd h1 hc.dash
  rw [hfs] at hn
  obtain ⟨c, hinv⟩ := inv_run (cfg := p.config streams policy false d ui) rfl hwf hr
  rcases newFiles_run (cfg := p.config streams policy false d ui) rfl hwf hr n node hn with
    h1 | ⟨ino, rfl, s, hs, q, hq, hl, h0, i, dir', r, f, hori, hal, hconv⟩
  · exact .inl h1
  rw [hd] at hall
  obtain ⟨a, ha, hsi, o, ho, hso⟩ := forall₂_right hall hs
  rw [hq] at hso
  obtain rfl : o = some q := by
    cases o with
    | none => cases hso
    | some q' => cases hso; rfl
  refine .inr ⟨h0, d, ui.term, ext, hd, asked_of hc.typed hp, he1, he2, a, ha, i, q, _, ?_, ho, hl,
    ⟨ino, by rw [hfs, hinv.base.loc, hl]; exact hn, by rw [hfs]⟩, part_of hL hal hconv⟩
  rcases hori a hsi with h | ⟨-, s', hs', q', hq', hl'⟩
  · exact h
  · exfalso
    obtain ⟨a', ha', -, o', ho', hso'⟩ := forall₂_right hall hs'
    rw [hq'] at hso'
    cases o' with
    | none => cases hso'
    | some q2 =>
      cases hso'
      exact hun a ha a' ha' false ext _ he1 ho' hl'.symm

/-- C89: at every moment of a conversion to standard output (with `--force` or not) no file has changed, and standard output holds
what a conversion of its input, with the credentials asked for, writes up to some moment. The input is standard input, after what
was typed to prompts and until it fails, or the content of the file named. -/
theorem stdout_is_part (p : Start) (hL : p.lib.Lawful) (dir : CryptDirection) (occs : List Occ) (free : List Arg)
    (hc : ConvertsStream p dir occs free) (m : Moment) (h : Reaches p m) :
    m.fs = p.fs ∧ (m.stdout = [] ∨ ∃ d t i, d.dir = dir ∧ Asked p occs t d ∧ PartOf p.lib i m.stdout d ∧
      (free = [] ∨ free = [['-']] → t.stdin = i.map .byte ∨ ∃ rest, t.stdin = i.map .byte ++ .fault :: rest) ∧
      (∀ a ino, free = [a] → a ≠ ['-'] → p.fs.openRead a = some (.file ino) → i = p.fs.content ino)) := by
  rcases moment_of h hc.typed hc.mode hc.help with ⟨hfs, hso⟩ | ⟨streams, policy, force, d, ui, ls, st, hp, hr, hfs, hso, hd⟩
  · exact ⟨hfs, .inl hso⟩
  rcases streams_selected _ _ _ _ _ _ _ hc.typed _ _ _ _ hp with ⟨-, s, hs1, hs2, hs3⟩ | ⟨h1, h2, h3, -⟩
  swap
  · exfalso
    rcases hc.stream with hs | hs | hs
    · exact h1 hs
    · exact h2 hs
    · exact h3 ['-'] (by rw [hs]; simp) ⟨[], [], rfl, by simp, by simp, by simp [Text.isWhitespace], by simp [Text.isWhitespace]⟩
  have hin' : ∀ q, s.input ≠ .file q := by
    rcases hs3 with ⟨h3, -⟩ | ⟨q, h3, -⟩ <;> (rw [h3]; simp)
  obtain ⟨hsame, hout⟩ := stream_mode_at_every_moment (cfg := p.config streams policy force d ui) hs1 hin' hs2 hr
  refine ⟨hfs.trans hsame, ?_⟩
  rw [hso]
  rcases hout with h0 | ⟨dir', i, r, flt, hal, ⟨hread, hstdin⟩, hconv⟩
  · exact .inl h0
  refine .inr ⟨d, ui.term, i, hd, asked_of hc.typed hp, part_of hL hal hconv, ?_, ?_⟩
  · intro hfree
    rcases hs3 with ⟨h3, -⟩ | ⟨q, h3, hq, hq'⟩
    · exact hstdin h3
    · rw [hq] at hfree
      rcases hfree with hfree | hfree
      · cases hfree
      · cases hfree; exact absurd rfl hq'
  · intro a ino ha had hopen
    rcases hs3 with ⟨-, h3⟩ | ⟨q, h3, hq, -⟩
    · rw [ha] at h3
      rcases h3 with h3 | h3
      · cases h3
      · cases h3; exact absurd rfl had
    · rw [ha] at hq
      cases hq
      exact hread a ino h3 hopen

/-! ## C90 -/

/-- The same names lead to the same places. -/
private theorem moment_loc {p : Start} (hwf : p.fs.WF) {dir : CryptDirection} {occs : List Occ} {free : List Arg}
    (hc : ConvertsFiles p dir occs free) (hf : ¬ Given occs .force) {m : Moment} (h : Reaches p m) : m.fs.loc = p.fs.loc := by
  rcases moment_of h hc.typed hc.mode (not_empty hc) with ⟨hfs, -⟩ | ⟨streams, policy, force, d, ui, ls, st, hp, hr, hfs, -, hd⟩
  · rw [hfs]
  · obtain rfl : force = false := by
      rw [← Bool.not_eq_true, (flags_reach_command _ _ _ _ _ _ _ hc.typed _ _ _ _ hp).1]; exact hf
    obtain ⟨c, hinv⟩ := inv_run (cfg := p.config streams policy false d ui) rfl hwf hr
    rw [hfs, hinv.base.loc]

/-- What is at the place of an output that only one argument has. -/
private theorem output_part {p : Start} (hL : p.lib.Lawful) (hwf : p.fs.WF) {dir : CryptDirection} {occs : List Occ} {free : List Arg}
    (hc : ConvertsFiles p dir occs free) (hf : ¬ Given occs .force) (hun : NoChain p dir occs free) {m : Moment} (h : Reaches p m)
    {a q : Arg} {b w : Bytes} (hb : p.fs.holds a b) (ho : OnlyOutput p dir occs free a q) (h0 : p.fs.entry (p.fs.loc q) = none)
    (hw : m.fs.holds q w) : ∃ d t, d.dir = dir ∧ Asked p occs t d ∧ PartOf p.lib b w d := by
  obtain ⟨ino, he, rfl⟩ := hw
  obtain ⟨ext1, hx1, hx2, hx3⟩ := ho
  have hloc := moment_loc hwf hc hf h
  rw [hloc] at he
  rcases new_files_are_parts p hL hwf dir occs free hc hf hun m h _ _ he with h1 | ⟨-, d, t, ext, hd, hask, he1, he2, a', ha', b', q', w',
    hb', hq', hl, ⟨ino', hw1, hw2⟩, hpart⟩
  · rw [h0] at h1; cases h1
  rw [he2 _ hx1] at hx2 hx3
  have hla := hx3 a' ha' q' hq' hl
  obtain ⟨i1, e1, rfl⟩ := hb
  obtain ⟨i2, e2, rfl⟩ := hb'
  rw [hla, e1] at e2
  cases e2
  rw [hloc, hl, he] at hw1
  cases hw1
  rw [hw2]
  exact ⟨d, t, hd, hask, hpart⟩

/-- When an argument cannot be converted, the program does not claim success and keeps the argument. -/
private theorem not_converted {p : Start} (hL : p.lib.Lawful) (hwf : p.fs.WF) {dir : CryptDirection} {occs : List Occ} {free : List Arg}
    (hc : ConvertsFiles p dir occs free) (hf : ¬ Given occs .force) (hun : NoChain p dir occs free) {m : Moment} (h : Reaches p m)
    {a : Arg} {b : Bytes} (ha : a ∈ free) (hb : p.fs.holds a b)
    (hno : ∀ d t F, d.dir = dir → Asked p occs t d → ¬ ResultOf p.lib b F d) : m.exit ≠ some 0 ∧ m.fs.holds a b := by
  constructor
  · intro hx
    obtain ⟨d, t, ext, hd, hask, -, hall⟩ := files_are_converted p hL hwf dir occs free hc hf hun m h hx
    obtain ⟨q, F, -, -, hres⟩ := hall a ha b hb
    exact hno d t F hd hask hres
  · rcases nothing_is_lost p hL hwf occs free hc.typed hf (fun dir' hl => by
      have : dir' = dir := by
        have := last_mode_unique _ _ _ hl hc.mode
        cases this; rfl
      subst this
      exact hun) m h a b hb with h1 | ⟨-, -, dir', d, t, ext, hl, hd, hask, -, a', -, -, q, F, -, -, hres⟩
    · exact h1
    · have : dir' = dir := by
        have := last_mode_unique _ _ _ hl hc.mode
        cases this; rfl
      subst this
      exact absurd hres (hno d t F hd hask)

/-- C90: decrypting a file with credentials that do not satisfy the tree it was encrypted for: the program does not exit with status
0, the file stays as it is at every moment, and nothing is ever written to the output. (That wrong keys are noticed is stated for
the header and the keys in question.) -/
theorem wrong_credentials (p : Start) (hL : p.lib.Lawful) (hwf : p.fs.WF) (occs : List Occ) (free : List Arg)
    (hc : ConvertsFiles p .decrypt occs free) (hf : ¬ Given occs .force) (hun : NoChain p .decrypt occs free) (m : Moment)
    (h : Reaches p m) (a : Arg) (ha : a ∈ free) (opts : EncryptOptions) (hw : opts.credential.WF) (b F hdr : Bytes) (codec : Codec)
    (cs : Nat) (hF : Encrypted p.lib opts b F hdr codec cs) (hb : p.fs.holds a F)
    (hno : ∀ t S, Asked p occs t (.decrypt S) → HeaderDetectsWrongCredentials codec.crypto hdr opts.credential S ∧
      opts.credential.satisfied (heldBy codec.crypto S) = false) :
    m.exit ≠ some 0 ∧ m.fs.holds a F ∧
      ∀ q w, OnlyOutput p .decrypt occs free a q → p.fs.entry (p.fs.loc q) = none → m.fs.holds q w → w = [] := by
  obtain ⟨draw, tape, hdraw, he, rfl, hmax⟩ := hF
  have hfin := encryption_can_finish (plain := b) hL hdraw he hmax
  have key : ∀ {t S o}, Asked p occs t (.decrypt S) → CryptFile.Conversion p.lib (Spec.file codec.crypto codec.payloadKey hdr cs b)
      (.decrypt S) o → o.written = [] ∧ o.result ≠ some (.ok ()) := by
    intro t S o hask hconv
    obtain ⟨hd, hs⟩ := hno t S hask
    obtain ⟨h1, h2⟩ := unsatisfied_writes_nothing hL hw hdraw he hfin (asked_usable hask) hd hs hconv
    refine ⟨h1, ?_⟩
    rcases h2 with h2 | h2 | ⟨-, h2⟩ <;> rw [h2] <;> simp
  obtain ⟨g1, g2⟩ := not_converted hL hwf hc hf hun h ha hb (by
    intro d t G hd hask hres
    cases d with
    | encrypt => cases hd
    | decrypt S =>
      obtain ⟨flt, hres⟩ := hres
      exact (key hask hres).2 rfl)
  refine ⟨g1, g2, fun q w ho h0 hw' => ?_⟩
  obtain ⟨d, t, hd, hask, hpart⟩ := output_part hL hwf hc hf hun h hb ho h0 hw'
  cases d with
  | encrypt => cases hd
  | decrypt S =>
    obtain ⟨r, flt, hconv⟩ := hpart
    exact (key hask hconv).1

/-- What a stream reads. -/
private theorem stream_input {p : Start} {occs : List Occ} {free : List Arg} {F i : Bytes}
    (hin : (free = [] ∨ free = [['-']]) ∧ (∀ t S, Asked p occs t (.decrypt S) → t.stdin = F.map .byte) ∨
      ∃ a ino, free = [a] ∧ a ≠ ['-'] ∧ p.fs.openRead a = some (.file ino) ∧ p.fs.content ino = F)
    {t : Term} {S : List Credential} (hask : Asked p occs t (.decrypt S))
    (h1 : free = [] ∨ free = [['-']] → t.stdin = i.map .byte ∨ ∃ rest, t.stdin = i.map .byte ++ .fault :: rest)
    (h2 : ∀ a ino, free = [a] → a ≠ ['-'] → p.fs.openRead a = some (.file ino) → i = p.fs.content ino) : i = F := by
  rcases hin with ⟨hfree, hin⟩ | ⟨a, ino, hfree, hne, ho, hino⟩
  · rcases h1 hfree with h | ⟨rest, h⟩
    · exact List.map_injective_iff.mpr (fun x y h => by cases h; rfl) (h.symm.trans (hin t S hask))
    · exfalso
      have := h.symm.trans (hin t S hask)
      have hm : UI.Input.fault ∈ F.map UI.Input.byte := by
        rw [← this]; simp
      obtain ⟨x, -, hx⟩ := List.mem_map.mp hm
      cases hx
  · rw [h2 a ino hfree hne ho, hino]

/-- C90: the same for a decryption to standard output: nothing is ever written to it, and no file changes. -/
theorem wrong_credentials_stream (p : Start) (hL : p.lib.Lawful) (occs : List Occ) (free : List Arg)
    (hc : ConvertsStream p .decrypt occs free) (m : Moment) (h : Reaches p m) (opts : EncryptOptions) (hw : opts.credential.WF)
    (b F hdr : Bytes) (codec : Codec) (cs : Nat) (hF : Encrypted p.lib opts b F hdr codec cs)
    (hin : (free = [] ∨ free = [['-']]) ∧ (∀ t S, Asked p occs t (.decrypt S) → t.stdin = F.map .byte) ∨
      ∃ a ino, free = [a] ∧ a ≠ ['-'] ∧ p.fs.openRead a = some (.file ino) ∧ p.fs.content ino = F)
    (hno : ∀ t S, Asked p occs t (.decrypt S) → HeaderDetectsWrongCredentials codec.crypto hdr opts.credential S ∧
      opts.credential.satisfied (heldBy codec.crypto S) = false) :
    m.exit ≠ some 0 ∧ m.stdout = [] ∧ m.fs = p.fs := by
  obtain ⟨draw, tape, hdraw, he, rfl, hmax⟩ := hF
  have hfin := encryption_can_finish (plain := b) hL hdraw he hmax
  have key : ∀ {t S o}, Asked p occs t (.decrypt S) → CryptFile.Conversion p.lib (Spec.file codec.crypto codec.payloadKey hdr cs b)
      (.decrypt S) o → o.written = [] ∧ o.result ≠ some (.ok ()) := by
    intro t S o hask hconv
    obtain ⟨hd, hs⟩ := hno t S hask
    obtain ⟨h1, h2⟩ := unsatisfied_writes_nothing hL hw hdraw he hfin (asked_usable hask) hd hs hconv
    refine ⟨h1, ?_⟩
    rcases h2 with h2 | h2 | ⟨-, h2⟩ <;> rw [h2] <;> simp
  refine ⟨fun hx => ?_, ?_, (stdout_is_part p hL _ occs free hc m h).1⟩
  · obtain ⟨-, d, t, i, hd, hask, hres, h1, h2⟩ := stream_is_converted p hL _ occs free hc m h hx
    cases d with
    | encrypt => cases hd
    | decrypt S =>
      obtain ⟨flt, hres⟩ := hres
      obtain rfl := stream_input hin hask (fun hfree => .inl (h1 hfree)) h2
      exact (key hask hres).2 rfl
  · rcases (stdout_is_part p hL _ occs free hc m h).2 with h0 | ⟨d, t, i, hd, hask, hpart, h1, h2⟩
    · exact h0
    cases d with
    | encrypt => cases hd
    | decrypt S =>
      obtain ⟨r, flt, hpart⟩ := hpart
      obtain rfl := stream_input hin hask h1 h2
      exact (key hask hpart).1

/-! ## C91 -/

private theorem written_if_not_passing {L : CryptoLib} (hL : L.Lawful) {opts : EncryptOptions} {draw : Nat} {tape : Tape} {hdr : Bytes}
    {codec : Codec} {cs : Nat} (hdraw : draw < 1024) (he : encryptHeader L opts draw tape = .ok (hdr, codec, cs)) {b F' ph : Bytes}
    (hlen : b.length < 2 ^ 64 - 1) (hlen' : F'.length < 2 ^ 64 - 1) {S : List Credential}
    (hno : ¬ Passes L S b F' hdr codec cs ph) {o : CryptFile.Obs} (hc : CryptFile.Conversion L F' (.decrypt S) o) :
    o.written <+: b := by
  have hc' := hc
  cases hc with
  | decrypting _ hdr' n r codec' cs' ls s h1 h2 hrun =>
    obtain ⟨⟨rest, hr⟩, hpos, hmax, -⟩ := (read_header_accepts_iff { data := F' } hdr' n).mp (by rw [h1])
    simp only at hr
    by_cases hk : codec'.payloadKey = codec.payloadKey
    · rw [hr] at hc'
      rcases written_is_authentic hL hdraw he hlen ph hpos hmax (by rw [hr, List.length_append] at hlen'; omega) h2 hk hc' with h | h
      · exact h.1
      · exact absurd ⟨hdr', rest, codec', cs', hr, h2, .inr (.inl h)⟩ hno
    · exact absurd ⟨hdr', rest, codec', cs', hr, h2, .inl hk⟩ hno
  | _ => exact List.nil_prefix

/-- C91: decrypting a changed file `F'` — damaged, cut off, tampered with: unless it passes for an encrypted file (see `Passes`), the
program does not exit with status 0, the file stays as it is at every moment, and all that is ever written to the output is a
beginning of the plaintext. -/
theorem changed_file (p : Start) (hL : p.lib.Lawful) (hwf : p.fs.WF) (occs : List Occ) (free : List Arg)
    (hc : ConvertsFiles p .decrypt occs free) (hf : ¬ Given occs .force) (hun : NoChain p .decrypt occs free) (m : Moment)
    (h : Reaches p m) (a : Arg) (ha : a ∈ free) (opts : EncryptOptions) (b F hdr : Bytes) (codec : Codec) (cs : Nat) (ph : Bytes)
    (hF : Encrypted p.lib opts b F hdr codec cs) (hlen : b.length < 2 ^ 64 - 1) (F' : Bytes) (hF' : F' ≠ F)
    (hlen' : F'.length < 2 ^ 64 - 1) (hb : p.fs.holds a F')
    (hno : ∀ t S, Asked p occs t (.decrypt S) → ¬ Passes p.lib S b F' hdr codec cs ph) :
    m.exit ≠ some 0 ∧ m.fs.holds a F' ∧
      ∀ q w, OnlyOutput p .decrypt occs free a q → p.fs.entry (p.fs.loc q) = none → m.fs.holds q w → w <+: b := by
  obtain ⟨draw, tape, hdraw, he, rfl, hmax⟩ := hF
  have hfin := encryption_can_finish (plain := b) hL hdraw he hmax
  obtain ⟨g1, g2⟩ := not_converted hL hwf hc hf hun h ha hb (by
    intro d t G hd hask hres
    cases d with
    | encrypt => cases hd
    | decrypt S =>
      obtain ⟨flt, hres⟩ := hres
      rcases changed_file_rejected hL hdraw he hfin hlen ph hlen' hres with ⟨h1, -⟩ | h1
      · exact hF' h1
      · exact hno t S hask h1)
  refine ⟨g1, g2, fun q w ho h0 hw' => ?_⟩
  obtain ⟨d, t, hd, hask, hpart⟩ := output_part hL hwf hc hf hun h hb ho h0 hw'
  cases d with
  | encrypt => cases hd
  | decrypt S =>
    obtain ⟨r, flt, hconv⟩ := hpart
    exact written_if_not_passing hL hdraw he hlen hlen' (hno t S hask) hconv

/-- C91: the same for a decryption to standard output. -/
theorem changed_stream (p : Start) (hL : p.lib.Lawful) (occs : List Occ) (free : List Arg)
    (hc : ConvertsStream p .decrypt occs free) (m : Moment) (h : Reaches p m) (opts : EncryptOptions) (b F hdr : Bytes) (codec : Codec)
    (cs : Nat) (ph : Bytes) (hF : Encrypted p.lib opts b F hdr codec cs) (hlen : b.length < 2 ^ 64 - 1) (F' : Bytes) (hF' : F' ≠ F)
    (hlen' : F'.length < 2 ^ 64 - 1)
    (hin : (free = [] ∨ free = [['-']]) ∧ (∀ t S, Asked p occs t (.decrypt S) → t.stdin = F'.map .byte) ∨
      ∃ a ino, free = [a] ∧ a ≠ ['-'] ∧ p.fs.openRead a = some (.file ino) ∧ p.fs.content ino = F')
    (hno : ∀ t S, Asked p occs t (.decrypt S) → ¬ Passes p.lib S b F' hdr codec cs ph) :
    m.exit ≠ some 0 ∧ m.stdout <+: b ∧ m.fs = p.fs := by
  obtain ⟨draw, tape, hdraw, he, rfl, hmax⟩ := hF
  have hfin := encryption_can_finish (plain := b) hL hdraw he hmax
  refine ⟨fun hx => ?_, ?_, (stdout_is_part p hL _ occs free hc m h).1⟩
  · obtain ⟨-, d, t, i, hd, hask, hres, h1, h2⟩ := stream_is_converted p hL _ occs free hc m h hx
    cases d with
    | encrypt => cases hd
    | decrypt S =>
      obtain ⟨flt, hres⟩ := hres
      obtain rfl : i = F' := stream_input hin hask (fun hfree => .inl (h1 hfree)) h2
      rcases changed_file_rejected hL hdraw he hfin hlen ph hlen' hres with ⟨h1, -⟩ | h1
      · exact hF' h1
      · exact hno t S hask h1
  · rcases (stdout_is_part p hL _ occs free hc m h).2 with h0 | ⟨d, t, i, hd, hask, hpart, h1, h2⟩
    · rw [h0]; exact List.nil_prefix
    cases d with
    | encrypt => cases hd
    | decrypt S =>
      obtain ⟨r, flt, hpart⟩ := hpart
      obtain rfl : i = F' := stream_input hin hask h1 h2
      exact written_if_not_passing hL hdraw he hlen hlen' (hno t S hask) hpart

/-- C91: while an intact file is decrypted with credentials that satisfy its tree, whatever goes wrong, all that is ever written to
the output is a beginning of the plaintext. -/
theorem intact_file (p : Start) (hL : p.lib.Lawful) (hwf : p.fs.WF) (occs : List Occ) (free : List Arg)
    (hc : ConvertsFiles p .decrypt occs free) (hf : ¬ Given occs .force) (hun : NoChain p .decrypt occs free) (m : Moment)
    (h : Reaches p m) (a : Arg) (opts : EncryptOptions) (hw : opts.credential.WF) (b F hdr : Bytes) (codec : Codec)
    (cs : Nat) (hF : Encrypted p.lib opts b F hdr codec cs) (hb : p.fs.holds a F)
    (hyes : ∀ t S, Asked p occs t (.decrypt S) → HeaderDetectsWrongCredentials codec.crypto hdr opts.credential S ∧
      opts.credential.satisfied (heldBy codec.crypto S) = true) (q : Arg) (w : Bytes) (ho : OnlyOutput p .decrypt occs free a q)
    (h0 : p.fs.entry (p.fs.loc q) = none) (hq : m.fs.holds q w) : w <+: b := by
  obtain ⟨draw, tape, hdraw, he, hlay, hmax⟩ := hF
  obtain ⟨d, t, hd, hask, hpart⟩ := output_part hL hwf hc hf hun h hb ho h0 hq
  cases d with
  | encrypt => cases hd
  | decrypt S =>
    obtain ⟨r, flt, hconv⟩ := hpart
    obtain ⟨hdet, hsat⟩ := hyes t S hask
    exact (decrypt_layout hL hw hdraw he hlay hmax (asked_usable hask) hdet hsat hconv).1

/-! ## C92 -/

/-- C92: `--fast` on a machine where the library does not offer AES: the program does not exit with status 0, every file that was
there stays as it is at every moment, and new files are empty. -/
theorem fast_unsupported (p : Start) (hL : p.lib.Lawful) (hwf : p.fs.WF) (occs : List Occ) (free : List Arg)
    (hc : ConvertsFiles p .encrypt occs free) (hf : ¬ Given occs .force) (hun : NoChain p .encrypt occs free) (m : Moment)
    (h : Reaches p m) (hfast : Given occs .fast) (haes : ∀ C, p.lib.instantiate .aes256Gcm ≠ .ok C) :
    (∀ a ∈ free, ∀ b, p.fs.holds a b → m.exit ≠ some 0) ∧ (∀ a b, p.fs.holds a b → m.fs.holds a b) ∧
      ∀ q w, p.fs.entry (p.fs.loc q) = none → m.fs.holds q w → w = [] := by
  have key : ∀ d t b F, d.dir = .encrypt → Asked p occs t d → ¬ ResultOf p.lib b F d := by
    rintro d t b F hd hask hres
    cases d with
    | decrypt => cases hd
    | encrypt c fast =>
      obtain ⟨_, _, _, -, -, hfa, -⟩ := hask
      obtain rfl : fast = true := hfa.mpr hfast
      obtain ⟨draw, tape, hdr, codec, cs, -, he, -⟩ := hres
      obtain ⟨C, -, -, h1, -⟩ := encryptHeader_ok he
      exact haes C h1
  refine ⟨fun a ha b hb => (not_converted hL hwf hc hf hun h ha hb (fun d t F => key d t b F)).1, fun a b hb => ?_, ?_⟩
  · rcases nothing_is_lost p hL hwf occs free hc.typed hf (fun dir' hl => by
      have : dir' = .encrypt := by
        have := last_mode_unique _ _ _ hl hc.mode
        cases this; rfl
      subst this
      exact hun) m h a b hb with h1 | ⟨-, -, dir', d, t, ext, hl, hd, hask, -, a', -, -, q, F, -, -, hres⟩
    · exact h1
    · have : dir' = .encrypt := by
        have := last_mode_unique _ _ _ hl hc.mode
        cases this; rfl
      subst this
      exact absurd hres (key d t b F hd hask)
  · rintro q w h0 ⟨ino, he, rfl⟩
    rw [moment_loc hwf hc hf h] at he
    rcases new_files_are_parts p hL hwf _ occs free hc hf hun m h _ _ he with h1 | ⟨-, d, t, ext, hd, hask, -, -, a', -, b', q', w', -, -, hl,
      ⟨ino', hw1, hw2⟩, hpart⟩
    · rw [h0] at h1; cases h1
    rw [moment_loc hwf hc hf h, hl, he] at hw1
    cases hw1
    rw [hw2]
    cases d with
    | decrypt => cases hd
    | encrypt c fast =>
      rcases hpart with h | ⟨F, hF, -⟩
      · exact h
      · exact absurd hF (key _ t b' F hd hask)

/-- C92: a file that was encrypted with `--fast` on another machine, with the library `L'`, and a machine where the library does not
offer AES: the program does not exit with status 0, the file stays as it is, and nothing is ever written to the output. -/
theorem fast_file_unsupported (p : Start) (hL : p.lib.Lawful) (hwf : p.fs.WF) (occs : List Occ) (free : List Arg)
    (hc : ConvertsFiles p .decrypt occs free) (hf : ¬ Given occs .force) (hun : NoChain p .decrypt occs free) (m : Moment)
    (h : Reaches p m) (a : Arg) (ha : a ∈ free) (L' : CryptoLib) (hL' : L'.Lawful) (opts : EncryptOptions) (hw : opts.credential.WF)
    (b F hdr : Bytes) (codec : Codec) (cs : Nat) (hF : Encrypted L' opts b F hdr codec cs) (hb : p.fs.holds a F)
    (hfast : opts.fastAead = true) (haes : ∀ C, p.lib.instantiate .aes256Gcm ≠ .ok C) :
    m.exit ≠ some 0 ∧ m.fs.holds a F ∧
      ∀ q w, OnlyOutput p .decrypt occs free a q → p.fs.entry (p.fs.loc q) = none → m.fs.holds q w → w = [] := by
  obtain ⟨draw, tape, hdraw, he, rfl, hmax⟩ := hF
  obtain ⟨hd, hdec, halg, -⟩ := algorithm_is_chosen hw he (by unfold Spec.maxHeader at hmax; omega)
  have hpos := header_nonempty hL' he
  have key : ∀ {S o}, CryptFile.Conversion p.lib (Spec.file codec.crypto codec.payloadKey hdr cs b) (.decrypt S) o →
      o.written = [] ∧ o.result ≠ some (.ok ()) := by
    intro S o hconv
    cases hconv with
    | decrypting _ hdr' n r codec' cs' ls s h1 h2 hrun =>
      exfalso
      obtain ⟨pieces, hp, hfr, -⟩ := (write_header_frames hdr).1 hmax
      obtain ⟨r', hr', -⟩ := read_header_write_header hdr
        (Spec.payload codec.crypto codec.payloadKey (codec.crypto.hash hdr) cs b) false pieces hpos hp
      rw [hfr] at hr'
      rw [show Spec.file codec.crypto codec.payloadKey hdr cs b = Spec.frame hdr ++
        Spec.payload codec.crypto codec.payloadKey (codec.crypto.hash hdr) cs b from rfl, hr'] at h1
      cases h1
      obtain ⟨hd', ck, pb, ph, hdec', hfam, -⟩ := accepted_header_consistent h2
      rw [hdec] at hdec'
      cases hdec'
      rw [(halg hfast).2] at hfam
      rcases hfam with ⟨h3, -⟩ | ⟨-, h3⟩
      · cases h3
      · exact haes _ h3
    | _ => exact ⟨rfl, by simp⟩
  obtain ⟨g1, g2⟩ := not_converted hL hwf hc hf hun h ha hb (by
    intro d t G hd hask hres
    cases d with
    | encrypt => cases hd
    | decrypt S =>
      obtain ⟨flt, hres⟩ := hres
      exact (key hres).2 rfl)
  refine ⟨g1, g2, fun q w ho h0 hw' => ?_⟩
  obtain ⟨d, t, hd, hask, hpart⟩ := output_part hL hwf hc hf hun h hb ho h0 hw'
  cases d with
  | encrypt => cases hd
  | decrypt S =>
    obtain ⟨r, flt, hconv⟩ := hpart
    exact (key hconv).1

end Rypt.Props
