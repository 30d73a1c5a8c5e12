import Verif.Model.CryptStreams
import Verif.Proofs.CanSucceed
import Verif.Proofs.PipelineEnd
import Verif.Props.File
import Mathlib.Tactic.Choose

/-! Lemmas for C115: conversions of files come to an end. -/

namespace Rypt.Pipeline

variable {P : Params} {data : Bytes}

theorem Run.append {a b c : State} {ls ls' : List Label} (h : Run P a ls b) (h' : Run P b ls' c) : Run P a (ls ++ ls') c := by
  induction h' with
  | refl => simpa using h
  | step ls t l u _ hs ih => rw [← List.append_assoc]; exact .step _ _ _ _ ih hs

theorem written_grows {s t : State} {ls : List Label} (h : Run P s ls t) : s.written <+: t.written := by
  induction h with
  | refl => exact List.prefix_rfl
  | step ls t l u _ hs ih =>
    refine ih.trans ?_
    cases hs <;> first | exact List.prefix_rfl | exact List.prefix_append _ _

/-- Before the output was flushed, flushing could have failed. -/
theorem before_flush {ls : List Label} {s : State} (h : Run P (State.start data) ls s) (hf : s.flushed = true) :
    ∃ ls' t c, Run P (State.start data) ls' t ∧ t.writer = .flushing c ∧ t.written = s.written := by
  induction h with
  | refl => cases hf
  | step ls t l u hr hs ih =>
    cases hs
    case writeSome => cases hf
    case flush c hw => exact ⟨ls, t, c, hr, hw, rfl⟩
    all_goals exact ih hf

/-- A pipeline that has not returned can still fail. -/
theorem can_fail (hL : P.conv.Lawful) (hN : 0 < P.inputBufferSize) {ls : List Label} {s : State} (h : Run P (State.start data) ls s)
    (_ : ∀ r, s.main ≠ .done r) :
    ∃ ls' s' e, Run P (State.start data) ls' s' ∧ s.written <+: s'.written ∧ s'.main = .done (.err e) := by
  obtain ⟨k, hk⟩ := inv_run hL hN h
  obtain ⟨ls1, s1, r, hr1, hnf, hd⟩ := can_finish hL hN _ _ _ _ hk (Nat.le_refl _)
  have hrun := h.append hr1
  cases r with
  | err e => exact ⟨_, s1, e, hrun, written_grows hr1, hd⟩
  | panic =>
    exfalso
    obtain ⟨k1, hk1⟩ := inv_run hL hN hrun
    obtain ⟨er, ec, ew, -, -, -, hres, -⟩ := final_cases hk1 hd
    revert hres
    cases er <;> cases ec <;> cases ew <;> simp [joinResults]
  | ok u =>
    obtain ⟨k1, hk1⟩ := inv_run hL hN hrun
    obtain ⟨-, -, hfl, -⟩ := final_ok hk1 hd
    obtain ⟨ls2, t, c, hr2, hw, hwr⟩ := before_flush hrun hfl
    have hr3 := Run.step _ _ _ _ hr2 (.flushFault t c hw)
    obtain ⟨k3, hk3⟩ := inv_run hL hN hr3
    obtain ⟨ls4, s4, r, hr4, -, hd4⟩ := can_finish hL hN _ _ _ _ hk3 (Nat.le_refl _)
    have hrun4 := hr3.append hr4
    obtain ⟨k4, hk4⟩ := inv_run hL hN hrun4
    obtain ⟨e, he⟩ := final_fault hk4 hd4 (by simp)
    refine ⟨_, s4, e, hrun4, ?_, by rw [hd4, he]⟩
    refine (written_grows hr1).trans ?_
    rw [← hwr]
    have := written_grows hr4
    exact this

end Rypt.Pipeline

namespace Rypt.CryptFile

open Pipeline HeaderCrypto Props

variable {L : CryptoLib} {input : Bytes} {dir : Direction}

theorem resultOf_none {s : State} (h : resultOf s = none) (r : Res Unit) : s.main ≠ .done r := by
  intro hm
  unfold resultOf at h
  rw [hm] at h
  cases h

theorem decrypt_buffer (hL : L.Lawful) {hdr : Bytes} {S : List Credential} {codec : Codec} {cs : Nat}
    (h : decryptHeader L hdr S = .ok (codec, cs)) : 0 < (pipe codec cs).inputBufferSize := by
  have : (pipe codec cs).inputBufferSize = cs + 16 := by rw [(codec_of_decrypt hL h).2]; rfl
  omega

theorem writeHeader_no_panic (hdr : Bytes) : HeaderIO.writeHeader hdr ≠ .panic := by
  intro h
  unfold HeaderIO.writeHeader at h
  split at h
  · cases h
  · rw [if_neg (by simp [HeaderIO.FILE_SIGNATURE, HeaderIO.PREHEADER_LEN, HeaderIO.FILE_SIGNATURE_LEN, leBytes])] at h
    cases h

/-- What a conversion writes does not get longer and longer. -/
theorem written_bounded (hL : L.Lawful) (hd : ∀ opts draw tape, dir = .encrypt opts draw tape → draw < 1024) :
    ∃ B, ∀ w r f, Conversion L input dir ⟨w, r, f⟩ → w.length ≤ B := by
  obtain ⟨w, r, -, h⟩ := conversion_can_end (input := input) hL dir hd
  exact ⟨w.length, fun w' r' f h' => (h _ h').length_le⟩

/-- A conversion that is going on can still fail. -/
theorem conversion_can_fail (hL : L.Lawful) (hd : ∀ opts draw tape, dir = .encrypt opts draw tape → draw < 1024) {w : Bytes} {f : Bool}
    (h : Conversion L input dir ⟨w, none, f⟩) :
    ∃ w' r f', w <+: w' ∧ r ≠ .ok () ∧ Conversion L input dir ⟨w', some r, f'⟩ := by
  generalize ho : (⟨w, none, f⟩ : Obs) = o at h
  cases h with
  | started =>
    cases ho
    cases dir with
    | encrypt opts draw tape =>
      cases he : encryptHeader L opts draw tape with
      | err e => exact ⟨[], _, _, List.prefix_rfl, by simp, .encryptHeaderErr _ _ _ _ he⟩
      | panic => exact ⟨[], _, _, List.prefix_rfl, by simp, .encryptHeaderPanic _ _ _ he⟩
      | ok x =>
        obtain ⟨hdr, codec, cs⟩ := x
        cases hw : HeaderIO.writeHeader hdr with
        | err e => exact ⟨[], _, _, List.prefix_rfl, by simp, .writeHeaderErr _ _ _ _ _ _ _ he hw⟩
        | panic =>
          exact absurd hw (writeHeader_no_panic hdr)
        | ok pieces => exact ⟨[], _, _, List.prefix_rfl, by simp, .writeHeaderFault _ _ _ _ _ _ _ _ he hw (List.nil_prefix)⟩
    | decrypt S => exact ⟨[], _, _, List.prefix_rfl, by simp, .readHeaderFault S⟩
  | encryptHeaderErr => cases ho
  | encryptHeaderPanic => cases ho
  | writeHeaderErr => cases ho
  | writingHeader _ _ _ _ _ _ _ _ h1 h2 h3 =>
    cases ho
    exact ⟨w, _, _, List.prefix_rfl, by simp, .writeHeaderFault _ _ _ _ _ _ _ _ h1 h2 h3⟩
  | writeHeaderFault => cases ho
  | encrypting _ _ _ _ codec cs pieces ls s h1 h2 h3 =>
    have hw : w = pieces.flatten ++ s.written := congrArg Obs.written ho
    have hn : none = resultOf s := congrArg Obs.result ho
    obtain ⟨ls', s', e, hr, hp, hm⟩ := can_fail (ofCodec_lawful (lawful_of_encrypt hL h1))
      (Nat.lt_of_lt_of_le (cs_pos (hd _ _ _ rfl) h1) (Nat.le_add_right _ _)) h3 (resultOf_none hn.symm)
    have := Conversion.encrypting (L := L) (input := input) _ _ _ _ _ _ _ _ _ h1 h2 hr
    have hres : resultOf s' = some (.err e) := by unfold resultOf; rw [hm]
    rw [hres] at this
    refine ⟨_, .err e, _, ?_, by simp, this⟩
    rw [hw]
    exact (List.prefix_append_right_inj _).mpr hp
  | readHeaderFault => cases ho
  | readHeaderErr => cases ho
  | readHeaderPanic => cases ho
  | decryptHeaderErr => cases ho
  | decryptHeaderPanic => cases ho
  | decrypting _ _ _ _ codec cs ls s h1 h2 h3 =>
    have hw : w = s.written := congrArg Obs.written ho
    have hn : none = resultOf s := congrArg Obs.result ho
    obtain ⟨ls', s', e, hr, hp, hm⟩ := can_fail (ofCodec_lawful (codec_of_decrypt hL h2).1) (decrypt_buffer hL h2) h3
      (resultOf_none hn.symm)
    have := Conversion.decrypting (L := L) (input := input) _ _ _ _ _ _ _ _ h1 h2 hr
    have hres : resultOf s' = some (.err e) := by unfold resultOf; rw [hm]
    rw [hres] at this
    exact ⟨_, .err e, _, by rw [hw]; exact hp, by simp, this⟩

end Rypt.CryptFile

namespace Rypt.CryptStreams

open Filesystem CryptFile

variable {cfg : Config}

/-- What is known while a file is converted. -/
structure Going (cfg : Config) (st : State) : Prop where
  converting : ∀ s out sink dir input written, st.pc = .converting s out sink dir input written →
    cfg.direction.allows dir ∧ ∃ f, Conversion cfg.lib input dir ⟨written, none, f⟩

theorem going_of {st : State} (h : ∀ s out sink dir input written, st.pc ≠ .converting s out sink dir input written) : Going cfg st :=
  ⟨fun s out sink dir input written hp => absurd hp (h s out sink dir input written)⟩

theorem going_step {st st' : State} {l : Label} (hg : Going cfg st) (h : Step cfg st l st') : Going cfg st' := by
  cases h
  case openOutput dir input _ _ hal _ _ =>
    refine ⟨fun s out sink dir' input' written hp => ?_⟩
    cases hp
    exact ⟨hal, false, .started _⟩
  case write hpc hpre hc =>
    refine ⟨fun s out sink dir' input' written hp => ?_⟩
    cases hp
    exact ⟨(hg.converting _ _ _ _ _ _ hpc).1, _, hc⟩
  case prompt a _ _ _ =>
    refine going_of fun s out sink dir input written hp => ?_
    simp only at hp
    split at hp <;> cases hp
  all_goals exact going_of fun s out sink dir input written hp => by cases hp

theorem going_run {fs : FS} {ls : List Label} {st : State} (h : Run cfg (State.start cfg fs) ls st) : Going cfg st := by
  induction h with
  | refl => exact going_of fun s out sink dir input written hp => by cases hp
  | step ls t l u _ hs ih => exact going_step ih hs

theorem draw_of {dir : Direction} (h : cfg.direction.allows dir) (opts : HeaderCrypto.EncryptOptions) (draw : Nat) (tape : Tape)
    (hd : dir = .encrypt opts draw tape) : draw < 1024 := by
  subst hd
  unfold DirOpts.allows at h
  split at h
  · rename_i heq; cases heq; exact h.2
  · cases ‹_ = Direction.decrypt _›
  · exact h.elim

/-- How many steps there can be, apart from writing. -/
def ahead (st : State) : Nat :=
  match st.pc with
  | .next => 10 * st.todo.length + st.cleanups.length + 3
  | .inputOpen _ _ _ => 10 * st.todo.length + st.cleanups.length + 8
  | .converting .. => 10 * st.todo.length + st.cleanups.length + 7
  | .failing _ (some _) => 10 * st.todo.length + st.cleanups.length + 6
  | .failing _ none => 10 * st.todo.length + st.cleanups.length + 5
  | .endOfFile => 10 * st.todo.length + st.cleanups.length + 4
  | .asking => st.cleanups.length + 2
  | .deleting ps => ps.length + 1
  | .done _ => 0
  | .panicked => 0

theorem write_rest (st : State) (sink : Sink) (a b : Bytes) :
    (st.write sink a b).todo = st.todo ∧ (st.write sink a b).cleanups = st.cleanups ∧ (st.write sink a b).pc = st.pc ∧
      (st.write sink a b).errors = st.errors := by
  unfold State.write
  split <;> exact ⟨rfl, rfl, rfl, rfl⟩

/-- Every step brings the end nearer, unless it only writes. -/
theorem ahead_step {st st' : State} {l : Label} (h : Step cfg st l st') :
    ahead st' < ahead st ∨ ∃ s out sink dir input written written', st.pc = .converting s out sink dir input written ∧
      written <+: written' ∧ st' = { st.write sink written written' with pc := .converting s out sink dir input written' } := by
  cases h
  case write s out sink dir input written written' f hpc hpre hc =>
    exact .inr ⟨s, out, sink, dir, input, written, written', hpc, hpre, rfl⟩
  case success s out sink dir input written written' f hpc hpre hc hin =>
    left
    have := write_rest st sink written written'
    simp only [ahead, hpc, this.1, List.length_append]
    have : ((inputCleanup s.input).toList).length ≤ 1 := by cases inputCleanup s.input <;> simp
    omega
  case failure s out sink dir input written written' e f hpc hpre hc =>
    left
    have := write_rest st sink written written'
    cases hcu : outputCleanup out <;> simp only [ahead, hpc, this.1, this.2.1] <;> omega
  case panic s out sink dir input written written' f hpc hpre hc =>
    left
    simp only [ahead, hpc]
    omega
  case progressPanic hpc _ _ _ _ _ _ _ =>
    left
    simp only [ahead, hpc]
    omega
  case prompt t' a hpc _ _ =>
    left
    simp only [ahead, hpc]
    cases a with
    | none => simp
    | some b => cases b <;> simp
  all_goals
    left
    simp only [ahead, *, List.length_cons, List.length_nil]
    try omega

theorem step_fails {st : State} (hL : cfg.lib.Lawful) (hg : Going cfg st) {s : Stream} {out : Output} {sink : Sink} {dir : Direction}
    {input written : Bytes} (hpc : st.pc = .converting s out sink dir input written) : ∃ l st', Step cfg st l st' ∧ ahead st' < ahead st := by
  obtain ⟨hal, f, hc⟩ := hg.converting _ _ _ _ _ _ hpc
  obtain ⟨w', r, f', hp, hr, hc'⟩ := conversion_can_fail hL (draw_of hal) hc
  have hrest := write_rest st sink written w'
  cases r with
  | ok u => exact absurd rfl hr
  | err e =>
    refine ⟨_, _, .failure st s out sink dir input written w' e f' hpc hp hc', ?_⟩
    cases hcu : outputCleanup out <;> simp only [ahead, hpc, hrest.1, hrest.2.1] <;> omega
  | panic =>
    refine ⟨_, _, .panic st s out sink dir input written w' f' hpc hp hc', ?_⟩
    simp only [ahead, hpc]
    omega

/-- As long as it is not over, the end can be brought nearer. -/
theorem step_nearer {st : State} (hL : cfg.lib.Lawful) (hg : Going cfg st) (hn : ¬ (st.pc = .panicked ∨ ∃ ok, st.pc = .done ok)) :
    ∃ l st', Step cfg st l st' ∧ ahead st' < ahead st := by
  have key : (∃ l st', Step cfg st l st' ∧ ∀ s out sink dir input written, st.pc ≠ .converting s out sink dir input written) →
      ∃ l st', Step cfg st l st' ∧ ahead st' < ahead st := by
    rintro ⟨l, st', h, hne⟩
    rcases ahead_step h with h' | ⟨s, out, sink, dir, input, written, written', hpc, -⟩
    · exact ⟨l, st', h, h'⟩
    · exact absurd hpc (hne _ _ _ _ _ _)
  cases hpc : st.pc with
  | next =>
    refine key ?_
    cases ht : st.todo with
    | nil =>
      by_cases hc : st.cleanups = []
      · exact ⟨_, _, .noCleanups st hpc ht hc, by simp [hpc]⟩
      · exact ⟨_, _, .cleanups st hpc ht hc, by simp [hpc]⟩
    | cons s rest =>
      cases ho : s.output with
      | none => exact ⟨_, _, .noOutput st s rest hpc ht ho, by simp [hpc]⟩
      | some out => exact ⟨_, _, .openInputFails st s rest out hpc ht ho, by simp [hpc]⟩
  | inputOpen s out h => exact key ⟨_, _, .openOutputFails st s out h hpc, by simp [hpc]⟩
  | converting s out sink dir input written => exact step_fails hL hg hpc
  | failing s c =>
    refine key ?_
    cases c with
    | none => exact ⟨_, _, .failedNoOutput st s hpc, by simp [hpc]⟩
    | some p => exact ⟨_, _, .failedNotDeleted st s p hpc, by simp [hpc]⟩
  | endOfFile => exact key ⟨_, _, .endOfFile st hpc, by simp [hpc]⟩
  | asking =>
    refine key ?_
    cases hp : cfg.policy with
    | keepFiles => exact ⟨_, _, .keep st hpc hp, by simp [hpc]⟩
    | deleteFiles => exact ⟨_, _, .delete st hpc hp, by simp [hpc]⟩
    | promptUser => exact ⟨_, _, .promptFails st hpc hp, by simp [hpc]⟩
  | deleting ps =>
    refine key ?_
    cases ps with
    | nil => exact ⟨_, _, .allDeleted st hpc, by simp [hpc]⟩
    | cons p rest => exact ⟨_, _, .deleteInputFails st p rest hpc, by simp [hpc]⟩
  | done ok => exact absurd (.inr ⟨ok, hpc⟩) hn
  | panicked => exact absurd (.inl hpc) hn

theorem can_end (hL : cfg.lib.Lawful) {st : State} (hg : Going cfg st) :
    ∃ ls' st', Run cfg st ls' st' ∧ (st'.pc = .panicked ∨ ∃ ok, st'.pc = .done ok) := by
  generalize hn : ahead st = n
  induction n using Nat.strong_induction_on generalizing st with
  | _ n ih =>
    by_cases he : st.pc = .panicked ∨ ∃ ok, st.pc = .done ok
    · exact ⟨[], st, .refl, he⟩
    · obtain ⟨l, st', hs, hlt⟩ := step_nearer hL hg he
      obtain ⟨ls', st'', hr, he'⟩ := ih (ahead st') (hn ▸ hlt) (going_step hg hs) rfl
      exact ⟨_, st'', (Run.step [] st l st' .refl hs).trans' hr, he'⟩

/-- A sequence of numbers that never grows is constant in the end. -/
theorem eventually_constant (g : Nat → Nat) (h : ∀ n, g (n + 1) ≤ g n) : ∃ N, ∀ n, N ≤ n → g n = g N := by
  generalize hm : g 0 = m
  induction m using Nat.strong_induction_on generalizing g with
  | _ m ih =>
    by_cases hc : ∀ n, g n = g 0
    · exact ⟨0, fun n _ => hc n⟩
    · obtain ⟨k, hk⟩ := not_forall.mp hc
      have hmono : ∀ n, g n ≤ g 0 := by
        intro n
        induction n with
        | zero => exact Nat.le_refl _
        | succ n ih => exact Nat.le_trans (h n) ih
      have hlt : g k < m := by have := hmono k; omega
      obtain ⟨N, hN⟩ := ih (g (k + 0)) hlt (fun n => g (k + n)) (fun n => h (k + n)) rfl
      refine ⟨k + N, fun n hn => ?_⟩
      have := hN (n - k) (by omega)
      rwa [show k + (n - k) = n by omega] at this

theorem write_again (st : State) (sink : Sink) (w : Bytes) : (st.write sink w w).write sink w w = st.write sink w w := by
  unfold State.write
  cases sink with
  | handle h =>
    cases h with
    | file ino =>
      simp only [FS.setContent]
      congr 2
      funext i
      split <;> rfl
    | other => rfl
  | stdout => simp

theorem endless_is_constant (hL : cfg.lib.Lawful) {fs : FS} (f : Nat → State) (h0 : f 0 = State.start cfg fs)
    (hs : ∀ n, ∃ l, Step cfg (f n) l (f (n + 1))) :
    ∃ N s out sink dir input written, (f N).pc = .converting s out sink dir input written ∧ ∀ n, N ≤ n → f n = f N := by
  have hgo : ∀ n, Going cfg (f n) := by
    intro n
    induction n with
    | zero => rw [h0]; exact going_run .refl
    | succ n ih => obtain ⟨l, h⟩ := hs n; exact going_step ih h
  have hle : ∀ n, ahead (f (n + 1)) ≤ ahead (f n) := by
    intro n
    obtain ⟨l, h⟩ := hs n
    rcases ahead_step h with h | ⟨s, out, sink, dir, input, written, written', hpc, -, heq⟩
    · exact Nat.le_of_lt h
    · rw [heq]
      have := write_rest (f n) sink written written'
      simp only [ahead, hpc, this.1, this.2.1]
      omega
  obtain ⟨N, hN⟩ := eventually_constant (fun n => ahead (f n)) hle
  have hw : ∀ n, N ≤ n → ∃ s out sink dir input written written', (f n).pc = .converting s out sink dir input written ∧
      written <+: written' ∧
      f (n + 1) = { (f n).write sink written written' with pc := .converting s out sink dir input written' } := by
    intro n hn
    obtain ⟨l, h⟩ := hs n
    rcases ahead_step h with h | h
    · have h1 := hN n hn
      have h2 := hN (n + 1) (by omega)
      omega
    · exact h
  obtain ⟨s, out, sink, dir, input, written, -, hpc, -, -⟩ := hw N (Nat.le_refl _)
  -- always the same conversion
  have hsame : ∀ n, ∃ w, (f (N + n)).pc = .converting s out sink dir input w := by
    intro n
    induction n with
    | zero => exact ⟨_, hpc⟩
    | succ n ih =>
      obtain ⟨w, hw'⟩ := ih
      obtain ⟨s1, out1, sink1, dir1, input1, w1, w1', hpc1, -, heq⟩ := hw (N + n) (by omega)
      rw [hw'] at hpc1
      cases hpc1
      exact ⟨w1', by rw [← Nat.add_assoc, heq]⟩
  obtain ⟨B, hB⟩ := written_bounded (L := cfg.lib) (input := input) (dir := dir) hL
    (draw_of ((hgo N).converting _ _ _ _ _ _ hpc).1)
  choose w hw' using hsame
  have hstep : ∀ n, w n <+: w (n + 1) ∧
      f (N + (n + 1)) = { (f (N + n)).write sink (w n) (w (n + 1)) with pc := .converting s out sink dir input (w (n + 1)) } := by
    intro n
    obtain ⟨s1, out1, sink1, dir1, input1, w1, w1', hpc1, hp, heq⟩ := hw (N + n) (by omega)
    rw [hw' n] at hpc1
    cases hpc1
    have h2 := hw' (n + 1)
    rw [← Nat.add_assoc, heq] at h2
    cases h2
    exact ⟨hp, by rw [← Nat.add_assoc, heq]⟩
  have hbound : ∀ n, (w n).length ≤ B := by
    intro n
    obtain ⟨-, flt, hc⟩ := (hgo (N + n)).converting _ _ _ _ _ _ (hw' n)
    exact hB _ _ _ hc
  obtain ⟨M, hM⟩ := eventually_constant (fun n => B - (w n).length) fun n => by
    have := (hstep n).1.length_le
    omega
  have hconst : ∀ n, M ≤ n → w (n + 1) = w n := by
    intro n hn
    have h1 := hM n hn
    have h2 := hM (n + 1) (by omega)
    have h3 := hbound n
    have h4 := hbound (n + 1)
    exact ((hstep n).1.eq_of_length (by omega)).symm
  refine ⟨N + (M + 1), s, out, sink, dir, input, w (M + 1), hw' _, fun n hn => ?_⟩
  have : ∀ k, f (N + (M + 1 + k)) = f (N + (M + 1)) ∧ w (M + 1 + k) = w M := by
    intro k
    induction k with
    | zero => exact ⟨rfl, hconst M (Nat.le_refl _)⟩
    | succ k ih =>
      have h1 := hconst (M + 1 + k) (by omega)
      refine ⟨?_, by rw [← Nat.add_assoc, h1, ih.2]⟩
      have h2 := (hstep (M + 1 + k)).2
      rw [h1, ih.2, ih.1] at h2
      have h3 := (hstep M).2
      rw [hconst M (Nat.le_refl _)] at h3
      rw [← Nat.add_assoc (M + 1), h2]
      have h4 : ∀ st : State, ({ st.write sink (w M) (w M) with pc := .converting s out sink dir input (w M) } : State).write sink (w M) (w M) =
          { (st.write sink (w M) (w M)).write sink (w M) (w M) with pc := .converting s out sink dir input (w M) } := by
        intro st
        generalize st.write sink (w M) (w M) = u
        unfold State.write
        split <;> rfl
      rw [h3, h4, write_again]
  have := (this (n - (N + (M + 1)))).1
  rwa [show N + (M + 1 + (n - (N + (M + 1)))) = n by omega] at this

end Rypt.CryptStreams
