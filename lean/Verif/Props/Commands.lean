import Verif.Proofs.StreamMode
import Verif.Props.CryptStreams

/-!
Properties C77, C78 and the command-level form of C01: what the conversion command does with standard output, which inputs it
deletes, and that a decryption command undoes an encryption command.
-/

namespace Rypt.Props

open Filesystem HeaderCrypto CryptFile CryptStreams

section

variable {cfg : Config} {fs0 : FS} {ls : List Label} {st : State}

private theorem ui_ok (hu : Label.uiFailed ∉ ls) : CryptStreams.uiFailed ls = false := by
  simp only [CryptStreams.uiFailed, List.any_eq_false]
  intro l hl
  cases l <;> simp
  exact hu hl

/-! ### C77 -/

/-- C77. Converting one stream to standard output: at every moment no file has changed, and standard output holds what a
conversion of the stream's input writes, up to now. -/
theorem stream_mode_at_every_moment {s : Stream} (hone : cfg.streams = [s]) (hin : ∀ p, s.input ≠ .file p)
    (hout : s.output = some .stdout) (h : Run cfg (State.start cfg fs0) ls st) :
    st.fs = fs0 ∧ (st.stdout = [] ∨ ∃ dir i r flt, cfg.direction.allows dir ∧ Reads cfg.stdin fs0 s i ∧
      Conversion cfg.lib i dir ⟨st.stdout, r, flt⟩) := by
  have hi := streamInv_run hone hin hout h
  exact ⟨hi.fs, hi.out⟩

/-- C77. When the command returns success, standard output holds exactly the complete result of converting the input. -/
theorem stdout_gets_result {s : Stream} (hone : cfg.streams = [s]) (hin : ∀ p, s.input ≠ .file p)
    (hout : s.output = some .stdout) (h : Run cfg (State.start cfg fs0) ls st) (hd : st.pc = .done true) :
    ∃ dir i flt, Label.converted s dir i st.stdout ∈ ls ∧ cfg.direction.allows dir ∧ Reads cfg.stdin fs0 s i ∧
      (s.input = .stdin → cfg.stdin = i.map .byte) ∧
      Conversion cfg.lib i dir ⟨st.stdout, some (.ok ()), flt⟩ := by
  have hi := streamInv_run hone hin hout h
  obtain ⟨hf, hu⟩ := (exit_status h hd).mp rfl
  have he := every_file_dealt_with h hd hu
  rw [hone] at he
  have hm : s ∈ ls.filterMap Label.ended := by rw [he]; simp
  obtain ⟨l, hl, hle⟩ := List.mem_filterMap.mp hm
  cases l with
  | converted s' dir i o =>
    obtain ⟨rfl, h1, h2, h3, h5, f, h4⟩ := hi.ended s' dir i o hl
    subst h3
    exact ⟨dir, i, f, hl, h1, h2, h5, h4⟩
  | failed s' => exact absurd hl (hf s')
  | _ => simp [Label.ended] at hle

/-- C77. A pipe: what was encrypted to standard output by one command is decrypted to the original by another that reads it,
whenever that returns success. -/
theorem stream_round_trip {cfgE cfgD : Config} {fsE fsD : FS} {lsE lsD : List Label} {stE stD : State} {sE sD : Stream}
    (hL : cfgE.lib.Lawful) (hlib : cfgD.lib = cfgE.lib)
    (hE1 : cfgE.streams = [sE]) (hE2 : ∀ p, sE.input ≠ .file p) (hE3 : sE.output = some .stdout)
    (hD1 : cfgD.streams = [sD]) (hD2 : ∀ p, sD.input ≠ .file p) (hD3 : sD.output = some .stdout)
    {opts : EncryptOptions} {S : List Credential} (hdE : cfgE.direction = .encrypt opts) (hdD : cfgD.direction = .decrypt S)
    (hcred : opts.credential.WF) (hS : ∀ c ∈ S, Usable c)
    (hS' : ∀ draw tape i o hdr codec cs, Label.converted sE (.encrypt opts draw tape) i o ∈ lsE →
      encryptHeader cfgE.lib opts draw tape = .ok (hdr, codec, cs) →
      HeaderDetectsWrongCredentials codec.crypto hdr opts.credential S ∧
        opts.credential.satisfied (heldBy codec.crypto S) = true)
    (hE : Run cfgE (State.start cfgE fsE) lsE stE) (hEd : stE.pc = .done true)
    (hD : Run cfgD (State.start cfgD fsD) lsD stD) (hDd : stD.pc = .done true)
    (hpipe : sD.input = .stdin ∧ cfgD.stdin = stE.stdout.map .byte) :
    ∃ dir, Label.converted sE dir stD.stdout stE.stdout ∈ lsE := by
  obtain ⟨dir, i, f, hm, ha, -, -, hc⟩ := stdout_gets_result hE1 hE2 hE3 hE hEd
  obtain ⟨dir', i', f', hm', ha', -, hi', hc'⟩ := stdout_gets_result hD1 hD2 hD3 hD hDd
  obtain rfl : stE.stdout = i' :=
    List.map_injective_iff.mpr (fun x y h => by cases h; rfl) (hpipe.2.symm.trans (hi' hpipe.1))
  rw [hdE] at ha
  rw [hdD] at ha'
  cases dir with
  | decrypt _ => exact absurd ha (by simp [DirOpts.allows])
  | encrypt opts' draw tape =>
    obtain ⟨rfl, hdraw⟩ := ha
    cases dir' with
    | encrypt _ _ _ => exact absurd ha' (by simp [DirOpts.allows])
    | decrypt S' =>
      obtain rfl : S' = S := ha'
      have : ∃ v, encryptHeader cfgE.lib opts' draw tape = .ok v := by
        generalize ho : (⟨stE.stdout, some (.ok ()), f⟩ : Obs) = o at hc
        cases hc with
        | encrypting _ _ _ hdr codec cs _ _ _ he => exact ⟨_, he⟩
        | _ => simp at ho
      obtain ⟨⟨hdr, codec, cs⟩, he⟩ := this
      obtain ⟨h1, h2⟩ := hS' _ _ _ _ _ _ _ hm he
      rw [hlib] at hc'
      have := ((decrypt_encrypt hL hcred hdraw he hc hS h1 h2 hc').2 _ rfl).2 rfl
      simp only at this
      rw [this]
      exact ⟨_, hm⟩

/-! ### C78 -/

/-- C78. When the command returns (and the dialogue did not fail), then: if deletion was asked for, the inputs for which a
deletion was tried are exactly the converted files, in order; otherwise none. -/
theorem discarded_inputs (h : Run cfg (State.start cfg fs0) ls st) {ok : Bool} (hd : st.pc = .done ok)
    (hu : Label.uiFailed ∉ ls) :
    ((cfg.policy = .deleteFiles ∨ (cfg.policy = .promptUser ∧ ∃ t t', Label.answer t (some true) t' ∈ ls)) →
      ls.filterMap Label.removal = ls.filterMap Label.convertedInput) ∧
    ((cfg.policy = .keepFiles ∨ (cfg.policy = .promptUser ∧ ∀ t t', Label.answer t (some true) t' ∉ ls)) →
      ls.filterMap Label.removal = []) := by
  have hr := (removal_run h).after ok hd (ui_ok hu)
  have hyes : ls.any Label.saidYes = true ↔ ∃ t t', Label.answer t (some true) t' ∈ ls := by
    rw [List.any_eq_true]
    constructor
    · rintro ⟨l, hl, hs⟩
      unfold Label.saidYes at hs
      split at hs
      · exact ⟨_, _, hl⟩
      · cases hs
    · rintro ⟨t, t', hm⟩
      exact ⟨_, hm, rfl⟩
  constructor
  · rintro (hp | ⟨hp, ht⟩)
    · rw [hr, if_pos (by simp [decision, hp])]
    · rw [hr, if_pos (by simp only [decision, hp, hyes.mpr ht]; rfl)]
  · rintro (hp | ⟨hp, ht⟩)
    · rw [hr, if_neg (by simp [decision, hp])]
    · have : ls.any Label.saidYes = false := by
        rw [← Bool.not_eq_true]
        exact fun hh => by obtain ⟨t, t', hm⟩ := hyes.mp hh; exact ht t t' hm
      rw [hr, if_neg (by simp only [decision, hp, this]; simp)]

/-- C78. A deleted input is gone: its directory entry is empty from then on (without `--force`, where no output can be put in
its place). -/
theorem deleted_is_gone (hforce : cfg.force = false) (hwf : fs0.WF) (h : Run cfg (State.start cfg fs0) ls st) {p : Path}
    (hp : Label.inputDeleted p ∈ ls) : st.fs.entry (fs0.loc p) = none := by
  obtain ⟨c, hc⟩ := inv_run hforce hwf h
  exact hc.base.gone _ ⟨p, hp, rfl⟩

/-! ### C01 -/

/-- A successful command has converted every file of its list; the result is at the output's name. -/
theorem result_at (hforce : cfg.force = false) (hwf : fs0.WF) (hun : cfg.Unchained fs0)
    (h : Run cfg (State.start cfg fs0) ls st) (hd : st.pc = .done true) {s : Stream} (hs : s ∈ cfg.streams) {p q : Path}
    {b : Bytes} (hp : s.input = .file p) (hq : s.output = some (.file q)) (hb : fs0.holds p b) :
    ∃ dir o flt, st.fs.holds q o ∧ cfg.direction.allows dir ∧ Conversion cfg.lib b dir ⟨o, some (.ok ()), flt⟩ := by
  obtain ⟨c, hc⟩ := inv_run hforce hwf h
  obtain ⟨hf, hu⟩ := (exit_status h hd).mp rfl
  have he := every_file_dealt_with h hd hu
  rw [← he] at hs
  obtain ⟨l, hl, hle⟩ := List.mem_filterMap.mp hs
  cases l with
  | converted s' dir i o =>
    obtain rfl : s' = s := by simpa [Label.ended] using hle
    obtain ⟨hmem, hal, -, f, hconv⟩ := hc.events s' dir i o hl
    obtain ⟨ino, hi, rfl⟩ := hb
    obtain rfl := hc.origin s' dir i o p ino hl hp hi
    refine ⟨dir, o, f, ?_, hal, hconv⟩
    rcases hc.base.facts (fs0.loc q) o ⟨s', dir, _, o, hl, .inr ⟨q, hq, rfl, rfl⟩⟩ with ⟨ino', e1, e2, -⟩ | ⟨x, hx, hxq⟩
    · exact ⟨ino', by rw [hc.base.loc]; exact e1, e2⟩
    · obtain ⟨-, s2, dir2, i2, o2, hm2, hi2⟩ := hc.deleted x hx
      exact absurd hxq (hun s2 (hc.events _ _ _ _ hm2).1 s' hmem x q hi2 hq)
  | failed s' => exact absurd hl (hf s')
  | _ => simp [Label.ended] at hle

/-- C01. For files: if an encryption command and, on any filesystem that has its output, a decryption command return success,
then the decryption's output file holds the original content. -/
theorem command_round_trip {cfgE : Config} {lsE : List Label} {stE : State}
    (hL : cfgE.lib.Lawful) (hforce : cfgE.force = false) (hwf : fs0.WF) (hun : cfgE.Unchained fs0)
    {opts : EncryptOptions} (hdir : cfgE.direction = .encrypt opts) (hcred : opts.credential.WF)
    (hE : Run cfgE (State.start cfgE fs0) lsE stE) (hEd : stE.pc = .done true)
    {s : Stream} (hs : s ∈ cfgE.streams) {p q : Path} {b : Bytes} (hp : s.input = .file p) (hq : s.output = some (.file q))
    (hb : fs0.holds p b) :
    ∃ F hdr codec cs draw tape, stE.fs.holds q F ∧ encryptHeader cfgE.lib opts draw tape = .ok (hdr, codec, cs) ∧
      ∀ (S : List Credential) (cfgD : Config) (fs1 : FS) (lsD : List Label) (stD : State) (s' : Stream) (q' r : Path),
        (∀ c ∈ S, Usable c) → HeaderDetectsWrongCredentials codec.crypto hdr opts.credential S →
        opts.credential.satisfied (heldBy codec.crypto S) = true →
        cfgD.lib = cfgE.lib → cfgD.direction = .decrypt S → cfgD.force = false → fs1.WF → cfgD.Unchained fs1 →
        fs1.holds q' F → s' ∈ cfgD.streams → s'.input = .file q' → s'.output = some (.file r) →
        Run cfgD (State.start cfgD fs1) lsD stD → stD.pc = .done true → stD.fs.holds r b := by
  obtain ⟨dir, F, f, hF, hal, hconv⟩ := result_at hforce hwf hun hE hEd hs hp hq hb
  rw [hdir] at hal
  cases dir with
  | decrypt _ => exact absurd hal (by simp [DirOpts.allows])
  | encrypt opts' draw tape =>
    obtain ⟨rfl, hdraw⟩ := hal
    have : ∃ v, encryptHeader cfgE.lib opts' draw tape = .ok v := by
      generalize ho : (⟨F, some (.ok ()), f⟩ : Obs) = o at hconv
      cases hconv with
      | encrypting _ _ _ hdr codec cs _ _ _ he => exact ⟨_, he⟩
      | _ => simp at ho
    obtain ⟨⟨hdr, codec, cs⟩, he⟩ := this
    refine ⟨F, hdr, codec, cs, draw, tape, hF, he, ?_⟩
    intro S cfgD fs1 lsD stD s' q' r hS hw hsat hlib hdirD hfD hwf1 hunD hh hs' hi' ho' hD hDd
    obtain ⟨dir', o, f', ho, hal', hconv'⟩ := result_at hfD hwf1 hunD hD hDd hs' hi' ho' hh
    rw [hdirD] at hal'
    cases dir' with
    | encrypt _ _ _ => exact absurd hal' (by simp [DirOpts.allows])
    | decrypt S' =>
      obtain rfl : S' = S := hal'
      rw [hlib] at hconv'
      have := ((decrypt_encrypt hL hcred hdraw he hconv hS hw hsat hconv').2 _ rfl).2 rfl
      simp only at this
      rw [← this]
      exact ho

end

/-! ### Concrete cases -/

namespace Sample

/-- The conversion of "b". -/
def bEnc : Bytes := Spec.file codec.crypto codec.payloadKey hdr chunkSize [30]

/-- Encrypt the file "b" to standard output. -/
def pipeE : Config := ⟨Toy.lib, [⟨.fileStream ['b'], some .stdout⟩], .keepFiles, false, .encrypt opts, [], fun _ _ => True⟩
/-- Decrypt standard input to standard output. -/
def pipeD : Config := ⟨Toy.lib, [⟨.stdin, some .stdout⟩], .keepFiles, false, .decrypt good, bEnc.map .byte, fun _ _ => True⟩

theorem pipeE_run : ∃ ls st, Run pipeE (State.start pipeE disk) ls st ∧ st.pc = .done true ∧ st.stdout = bEnc ∧
    (∀ dir i o, Label.converted ⟨.fileStream ['b'], some .stdout⟩ dir i o ∈ ls → dir = .encrypt opts 5 tape ∧ i = [30]) := by
  have r0 := Run.refl (cfg := pipeE) (st := State.start pipeE disk)
  have r1 := Run.step _ _ _ _ r0 (.openInput _ _ _ _ (.file 1) (some 1) rfl rfl rfl rfl)
  have r2 := Run.step _ _ _ _ r1 (.openOutput _ _ _ _ _ _ (.encrypt opts 5 tape) [30] rfl rfl ⟨rfl, by omega⟩
    (fun ino h _ => by cases h; rfl) (by rintro ⟨⟩))
  have r3 := Run.step _ _ _ _ r2 (.success _ _ _ _ _ _ _ bEnc false rfl List.nil_prefix (encrypted [30]) (by rintro ⟨⟩))
  have r4 := Run.step _ _ _ _ r3 (.endOfFile _ rfl)
  have r5 := Run.step _ _ _ _ r4 (.noCleanups _ rfl rfl rfl)
  exact ⟨_, _, r5, rfl, by simp [State.write, State.start], by simp +contextual⟩

theorem pipeD_run : ∃ ls st, Run pipeD (State.start pipeD disk) ls st ∧ st.pc = .done true ∧ st.stdout = [30] := by
  have r0 := Run.refl (cfg := pipeD) (st := State.start pipeD disk)
  have r1 := Run.step _ _ _ _ r0 (.openInput _ _ _ _ .other none rfl rfl rfl rfl)
  have r2 := Run.step _ _ _ _ r1 (.openOutput _ _ _ _ _ _ (.decrypt good) bEnc rfl rfl rfl
    (fun ino h _ => by cases h) (fun _ => .inl rfl))
  have r3 := Run.step _ _ _ _ r2 (.success _ _ _ _ _ _ _ [30] false rfl List.nil_prefix (decrypted [30]) (fun _ => rfl))
  have r4 := Run.step _ _ _ _ r3 (.endOfFile _ rfl)
  have r5 := Run.step _ _ _ _ r4 (.noCleanups _ rfl rfl rfl)
  exact ⟨_, _, r5, rfl, by simp [State.write, State.start]⟩

/-- C77: the hypotheses of `stream_round_trip` are met by `pipeE` and `pipeD`. -/
example : ∃ lsE stE lsD stD, Run pipeE (State.start pipeE disk) lsE stE ∧ Run pipeD (State.start pipeD disk) lsD stD ∧
    stE.pc = .done true ∧ stD.pc = .done true ∧ stE.stdout = bEnc ∧ stD.stdout = [30] ∧
    ∃ dir, Label.converted ⟨.fileStream ['b'], some .stdout⟩ dir stD.stdout stE.stdout ∈ lsE := by
  obtain ⟨lsE, stE, hE, hEd, hEo, hEc⟩ := pipeE_run
  obtain ⟨lsD, stD, hD, hDd, hDo⟩ := pipeD_run
  refine ⟨lsE, stE, lsD, stD, hE, hD, hEd, hDd, hEo, hDo, ?_⟩
  refine stream_round_trip (cfgE := pipeE) (cfgD := pipeD) Toy.lib_lawful rfl rfl (by simp) rfl rfl (by simp) rfl rfl rfl
    cred_wf good_usable ?_ hE hEd hD hDd ⟨rfl, by rw [hEo]; rfl⟩
  intro draw tape' i o hdr' codec' cs' hm he
  obtain ⟨h1, -⟩ := hEc _ _ _ hm
  cases h1
  rw [show pipeE.lib = Toy.lib from rfl, enc_ok] at he
  cases he
  exact ⟨good_detects, good_satisfies⟩

/-- C01: a successful encryption command for "a" (then `command_round_trip` applies). -/
theorem one_run : ∃ ls st, Run { job with streams := [⟨.file ['a'], some (.file ['a', '.', 'r'])⟩] }
    (State.start { job with streams := [⟨.file ['a'], some (.file ['a', '.', 'r'])⟩] } disk) ls st ∧
    st.pc = .done true ∧ st.fs.holds ['a', '.', 'r'] aEnc ∧ disk.holds ['a'] [10, 20] ∧
    ls.filterMap Label.removal = [['a']] ∧ ls.filterMap Label.convertedInput = [['a']] ∧ Label.uiFailed ∉ ls ∧
    Label.inputDeleted ['a'] ∈ ls := by
  have r0 := Run.refl (cfg := { job with streams := [⟨.file ['a'], some (.file ['a', '.', 'r'])⟩] })
    (st := State.start { job with streams := [⟨.file ['a'], some (.file ['a', '.', 'r'])⟩] } disk)
  have r1 := Run.step _ _ _ _ r0 (.openInput _ _ _ _ _ _ rfl rfl rfl a_plain)
  have r2 := Run.step _ _ _ _ r1 (.openOutput _ _ _ _ _ _ (.encrypt opts 5 tape) [10, 20] rfl rfl ⟨rfl, by omega⟩
    (fun ino h _ => by cases h; rfl) (by rintro ⟨⟩))
  have r3 := Run.step _ _ _ _ r2 (.success _ _ _ _ _ _ _ aEnc false rfl List.nil_prefix (encrypted [10, 20]) (by rintro ⟨⟩))
  have r4 := Run.step _ _ _ _ r3 (.endOfFile _ rfl)
  have r8 := Run.step _ _ _ _ r4 (.cleanups _ rfl rfl (by simp [inputCleanup]))
  have r9 := Run.step _ _ _ _ r8 (.delete _ rfl rfl)
  have r10 := Run.step _ _ _ _ r9 (.deleteInput _ ['a'] [] _ rfl rfl)
  have r11 := Run.step _ _ _ _ r10 (.allDeleted _ rfl)
  exact ⟨_, _, r11, rfl, ⟨2, rfl, rfl⟩, ⟨0, rfl, rfl⟩, rfl, rfl, by simp, by simp⟩

/-! The theorems above for these executions. -/

example : True := by
  obtain ⟨ls, st, h, hd, -⟩ := pipeE_run
  have := stream_mode_at_every_moment rfl (by simp) rfl h
  have := stdout_gets_result rfl (by simp) rfl h hd
  trivial

example : True := by
  obtain ⟨ls, st, h, hd, -, hb, -, -, hu, hdel⟩ := one_run
  have := discarded_inputs h hd hu
  have := deleted_is_gone rfl disk_wf h hdel
  have := command_round_trip Toy.lib_lawful rfl disk_wf (by
    intro s hs s' hs' p q hp hq
    simp only [List.mem_cons, List.not_mem_nil, or_false] at hs hs'
    subst hs hs'
    cases hp; cases hq; decide) rfl cred_wf h hd (List.mem_singleton_self _) rfl rfl hb
  trivial

end Sample
end Rypt.Props
