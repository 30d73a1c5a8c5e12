import Verif.Proofs.RunEnds
import Verif.Props.ProgramSamples

/-!
Property C115: a conversion of files always comes to an end.
-/

namespace Rypt.Props

open Filesystem CryptStreams CryptFile HeaderCrypto

/-- C115. From every moment of a conversion of any number of files, whatever has happened before, the program can get to its end. -/
theorem run_can_end {cfg : Config} (hL : cfg.lib.Lawful) {fs : FS} {ls : List Label} {st : State} (h : Run cfg (State.start cfg fs) ls st) :
    ∃ ls' st', Run cfg st ls' st' ∧ (st'.pc = .panicked ∨ ∃ ok, st'.pc = .done ok) :=
  can_end hL (going_run h)

/-- C115. An execution cannot go on for ever: if it is never over, the state is the same from some moment on, and a stream is just being
converted without progress. (By C22 the threads that convert it have only finitely many steps to make; what is left is waiting for the
operating system.) -/
theorem no_endless_run {cfg : Config} (hL : cfg.lib.Lawful) {fs : FS} (f : Nat → State) (h0 : f 0 = State.start cfg fs)
    (hs : ∀ n, ∃ l, Step cfg (f n) l (f (n + 1))) :
    ∃ N s out sink dir input written, (f N).pc = .converting s out sink dir input written ∧ ∀ n, N ≤ n → f n = f N :=
  endless_is_constant hL f h0 hs

/-- C115. When it is over, it is over. -/
theorem end_is_final {cfg : Config} {st st' : State} {l : Label} (he : st.pc = .panicked ∨ ∃ ok, st.pc = .done ok) :
    ¬ Step cfg st l st' := by
  intro h
  rcases he with he | ⟨ok, he⟩ <;> cases h <;> simp_all

/-- From standard input to standard output; nothing comes on standard input. -/
private def pipeCfg : Config :=
  ⟨Toy.lib, [⟨.stdin, some .stdout⟩], .keepFiles, false, .decrypt [.symmetricKey [9]], [], fun _ _ => True⟩

/-- A case: the state while a stream is converted, in an execution that has no end since the threads are never scheduled. -/
private def waiting (fs : FS) : Nat → State
  | 0 => State.start pipeCfg fs
  | 1 => ⟨fs, [], [], [], 0, .inputOpen ⟨.stdin, some .stdout⟩ .stdout .other⟩
  | _ => ⟨fs, [], [], [], 0, .converting ⟨.stdin, some .stdout⟩ .stdout .stdout (.decrypt [.symmetricKey [9]]) [] []⟩

private theorem waiting_steps (fs : FS) (n : Nat) : ∃ l, Step pipeCfg (waiting fs n) l (waiting fs (n + 1)) := by
  match n with
  | 0 => exact ⟨_, .openInput _ ⟨.stdin, some .stdout⟩ [] .stdout .other none rfl rfl rfl rfl⟩
  | 1 => exact ⟨_, .openOutput _ _ _ _ fs .stdout (.decrypt [.symmetricKey [9]]) [] rfl rfl rfl (by simp) (by simp [stdinGives, pipeCfg])⟩
  | n + 2 => exact ⟨_, .write (waiting fs 2) _ _ _ _ _ [] [] false rfl List.prefix_rfl (.started _)⟩

/-- The hypotheses of `no_endless_run` are met, and there is a way out at any time. -/
example (fs : FS) : (∃ N s out sink dir input written, (waiting fs N).pc = .converting s out sink dir input written ∧
      ∀ n, N ≤ n → waiting fs n = waiting fs N) ∧
    ∃ ls' st', Run pipeCfg (waiting fs 2) ls' st' ∧ (st'.pc = .panicked ∨ ∃ ok, st'.pc = .done ok) := by
  refine ⟨no_endless_run Toy.lib_lawful (waiting fs) rfl (waiting_steps fs), ?_⟩
  obtain ⟨l0, h0⟩ := waiting_steps fs 0
  obtain ⟨l1, h1⟩ := waiting_steps fs 1
  exact run_can_end Toy.lib_lawful (.step _ _ _ _ (.step _ _ _ _ .refl h0) h1)

end Rypt.Props
