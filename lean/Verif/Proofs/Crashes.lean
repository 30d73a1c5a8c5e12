import Verif.Proofs.StreamMode
import Verif.Proofs.NewFiles
import Verif.Proofs.GenKeys

/-! How a run comes to panic. -/

namespace Rypt.CryptStreams

open Filesystem CryptFile

variable {cfg : Config} {fs0 : FS}

theorem no_step_from_panicked {st st' : State} {l : Label} (h : st.pc = .panicked) (hs : Step cfg st l st') : False := by
  cases hs <;> simp_all

/-- The last step before a panic. -/
theorem panicked_from {ls : List Label} {st : State} (h : Run cfg (State.start cfg fs0) ls st) (hp : st.pc = .panicked) :
    ∃ ls' st' s out sink dir input written, Run cfg (State.start cfg fs0) ls' st' ∧
      st'.pc = .converting s out sink dir input written ∧
      ((∃ w flt, Conversion cfg.lib input dir ⟨w, some .panic, flt⟩) ∨
        ∃ start filesize calls, cfg.histories start calls ∧ (s.input = .stdin → filesize = none) ∧
          (∀ size, filesize = some size → size < 2 ^ 63) ∧ Progress.session start filesize calls = .panic ∧
          ∃ w f, Told cfg.lib input dir ⟨w, none, f⟩ (calls.map Prod.fst)) := by
  cases h with
  | refl => cases hp
  | step ls t l u hr hs =>
    cases hs with
    | panic s out sink dir input w w' f h1 h2 h3 => exact ⟨_, _, s, out, sink, dir, input, w, hr, h1, .inl ⟨w', f, h3⟩⟩
    | progressPanic s out sink dir input w w' f t0 sz calls h1 h2 h3 h4 h5 h6 h7 h8 =>
      obtain ⟨w0, f0, -, h8⟩ := h8
      exact ⟨_, _, s, out, sink, dir, input, w, hr, h1, .inr ⟨t0, sz, calls, h4, h5, h6, h7, w0, f0, h8⟩⟩
    | prompt t t' a h1 h2 h3 =>
      simp only at hp
      split at hp <;> cases hp
    | _ => simp_all

/-- In file mode, what is being converted. -/
theorem converting_file (hforce : cfg.force = false) (hwf : fs0.WF) (hun : cfg.Unchained fs0) {ls : List Label} {st : State}
    (h : Run cfg (State.start cfg fs0) ls st) {s : Stream} {out : Output} {sink : Sink} {dir : Direction} {input w : Bytes}
    (hpc : st.pc = .converting s out sink dir input w) : s ∈ cfg.streams ∧ cfg.direction.allows dir ∧
      ∀ p, s.input = .file p → fs0.holds p input := by
  obtain ⟨c, hinv⟩ := inv_run hforce hwf h
  have hp := hinv.pc
  simp only [PcInv, hpc] at hp
  obtain ⟨hnd, hso, hmem, hal, hin, hout⟩ := hp
  refine ⟨hmem, hal, fun p hsp => ?_⟩
  obtain ⟨ino, he, rfl, -⟩ := hin p hsp
  rcases origin_now hinv.base hwf (newFiles_run hforce hwf h) he with h1 | ⟨-, s', hs', q, hq, hl⟩
  · exact h1
  · exact absurd hl.symm (hun s hmem s' hs' p q hsp hq)

end Rypt.CryptStreams

namespace Rypt.GenKeys

open UI

theorem andThen_no_panic {α : Type} {r : Res Unit × World} {f : World → Res α × World} (h : r.1 ≠ .panic)
    (hf : ∀ w, (f w).1 ≠ .panic) : (andThen r f).1 ≠ .panic := by
  obtain ⟨r1, w⟩ := r
  cases r1 with
  | ok u => exact hf w
  | err e => simp [andThen]
  | panic => exact absurd rfl h

theorem writeAll_no_panic (t : Term) (b : List Char) : (UI.writeAll t b).1 ≠ .panic := by
  unfold UI.writeAll
  repeat' split
  all_goals simp

theorem say_no_panic (w : World) (m : List Char) : (say w m).1 ≠ .panic := by
  unfold say UI.println UI.print
  dsimp only
  split
  · exact writeAll_no_panic _ _
  · simp

theorem printError_no_panic (t : Term) (a b : List Char) : (UI.printError t a b).1 ≠ .panic := by
  unfold UI.printError
  split
  · exact writeAll_no_panic _ _
  · simp

theorem writeFile_no_panic (w : World) (force : Bool) (out : CryptStreams.Output) (b : Bytes) : (writeFile w force out b).1 ≠ .panic := by
  rw [writeFile]
  split
  · simp
  · split
    · simp
    · rw [writeAll]
      split <;> simp

theorem genPair_no_panic (sha512 : Bytes → Bytes) (force : Bool) (total idx : Nat) (s : Cli.KeyPairOutputStreams)
    (pk sk : Bytes) (hk : sk.drop 32 = pk) (w : World) : (genPair sha512 force total idx s pk sk w).1 ≠ .panic := by
  rw [genPair, KeyText.privateKeyText, if_pos hk.symm]
  refine andThen_no_panic (say_no_panic _ _) fun w => andThen_no_panic (say_no_panic _ _) fun w => ?_
  have h : ∀ pub priv, (writePair w force s pub priv).1 ≠ .panic := by
    intro pub priv
    rw [writePair]
    refine andThen_no_panic ?_ fun w => andThen_no_panic (say_no_panic _ _) fun w => writeFile_no_panic _ _ _ _
    split
    · simp
    · exact andThen_no_panic (say_no_panic _ _) fun w => writeFile_no_panic _ _ _ _
  generalize hr : writePair w force s _ _ = r
  have h := hr ▸ h _ _
  obtain ⟨r1, v⟩ := r
  cases r1 with
  | panic => exact absurd rfl h
  | ok u =>
    rw [reportPair]
    exact andThen_no_panic (say_no_panic _ _) fun w => by simp
  | err e =>
    rw [reportPair]
    exact andThen_no_panic (printError_no_panic _ _ _) fun w => andThen_no_panic (say_no_panic _ _) fun w => by simp

theorem genPairs_no_panic (sha512 : Bytes → Bytes) (force : Bool) (total : Nat)
    (pairs : List (Cli.KeyPairOutputStreams × Bytes × Bytes)) (hk : ∀ q ∈ pairs, q.2.2.drop 32 = q.2.1) :
    ∀ (idx : Nat) (w : World), (genPairs sha512 force total idx pairs w).1 ≠ .panic := by
  induction pairs with
  | nil => intro idx w; simp [genPairs]
  | cons q rest ih =>
    obtain ⟨s, pk, sk⟩ := q
    intro idx w
    rw [genPairs]
    have h := genPair_no_panic sha512 force total idx s pk sk (hk _ List.mem_cons_self) w
    split
    · rename_i he; rw [he] at h; exact absurd rfl h
    · simp
    · rename_i failed v he
      have h2 := ih (fun q hq => hk q (List.mem_cons_of_mem _ hq)) (idx + 1) v
      split
      · simp
      · exact h2

end Rypt.GenKeys
