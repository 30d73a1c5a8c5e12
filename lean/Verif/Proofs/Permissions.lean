import Verif.Model.Permissions
import Verif.Proofs.GenKeys
import Verif.Model.Program

/-! Lemmas on permissions. -/

namespace Rypt.Permissions

open Filesystem CryptStreams

variable {umask : Mode} {fs fs' fs'' : FS} {m m' m'' : Nat → Mode}

theorem Ops.trans (h1 : Ops umask fs m fs' m') (h2 : Ops umask fs' m' fs'' m'') : Ops umask fs m fs'' m'' := by
  induction h2 with
  | refl => exact h1
  | create f md n _ hn ih => exact .create f md n ih hn
  | write f md ino b _ ih => exact .write f md ino b ih
  | unlink f f' md p _ hu ih => exact .unlink f f' md p ih hu

theorem unlink_next {p : Path} (h : fs.unlink p = some fs') : fs'.nextIno = fs.nextIno := by
  unfold FS.unlink at h
  split at h <;> cases h <;> rfl

theorem unlink_entry {p : Path} (h : fs.unlink p = some fs') (n : Name) (node : Node) (hn : fs'.entry n = some node) :
    fs.entry n = some node := by
  have : ∀ x, (if n = fs.loc p then none else fs.entry n) = some x → fs.entry n = some x := by
    intro x hx
    split at hx
    · cases hx
    · exact hx
  unfold FS.unlink at h
  split at h <;> cases h <;> exact this _ hn

theorem Ops.next (h : Ops umask fs m fs' m') : fs.nextIno ≤ fs'.nextIno := by
  induction h with
  | refl => exact Nat.le_refl _
  | create f md n _ _ ih => exact Nat.le_succ_of_le ih
  | write f md ino b _ ih => exact ih
  | unlink f f' md p _ hu ih => rw [unlink_next hu]; exact ih

/-- Permissions are determined by the number of files created. -/
theorem Ops.modes (h : Ops umask fs m fs' m') (i : Nat) :
    m' i = if fs.nextIno ≤ i ∧ i < fs'.nextIno then created umask else m i := by
  induction h with
  | refl => rw [if_neg (by omega)]
  | create f md n ho _ ih =>
    have hn := ho.next
    show (if i = f.nextIno then created umask else md i) = if fs.nextIno ≤ i ∧ i < f.nextIno + 1 then created umask else m i
    split_ifs with h1 h2 h3
    · rfl
    · omega
    · rw [ih, if_pos (by omega)]
    · rw [ih, if_neg (by omega)]
  | write f md ino b _ ih => exact ih
  | unlink f f' md p _ hu ih => rw [unlink_next hu]; exact ih

/-- Files that are there afterwards were there, at the same place, or are new. -/
theorem Ops.entry (h : Ops umask fs m fs' m') (n : Name) (ino : Nat) (he : fs'.entry n = some (.file ino)) :
    fs.entry n = some (.file ino) ∨ fs.nextIno ≤ ino ∧ ino < fs'.nextIno := by
  induction h with
  | refl => exact .inl he
  | create f md k ho _ ih =>
    have hn := ho.next
    by_cases hk : n = k
    · rw [FS.createAt] at he
      simp only [if_pos hk, Option.some.injEq, Node.file.injEq] at he
      right
      show fs.nextIno ≤ ino ∧ ino < f.nextIno + 1
      omega
    · rw [FS.createAt] at he
      simp only [if_neg hk] at he
      rcases ih he with h | ⟨h1, h2⟩
      · exact .inl h
      · right
        show fs.nextIno ≤ ino ∧ ino < f.nextIno + 1
        omega
  | write f md ino' b _ ih => exact ih he
  | unlink f f' md p _ hu ih =>
    rw [unlink_next hu]
    exact ih (unlink_entry hu _ _ he)

/-- Some operations lead from one to the other. -/
def Via (umask : Mode) (fs fs' : FS) : Prop := ∀ m, ∃ m', Ops umask fs m fs' m'

theorem Via.refl (fs : FS) : Via umask fs fs := fun m => ⟨m, .refl⟩

theorem Via.trans (h1 : Via umask fs fs') (h2 : Via umask fs' fs'') : Via umask fs fs'' := fun m => by
  obtain ⟨m', h⟩ := h1 m
  obtain ⟨m'', h'⟩ := h2 m'
  exact ⟨m'', h.trans h'⟩

theorem Via.create {n : Name} (h : fs.entry n = none) : Via umask fs (fs.createAt n) := fun m => ⟨_, .create fs m n .refl h⟩

theorem Via.write (ino : Nat) (b : Bytes) : Via umask fs (fs.setContent ino b) := fun m => ⟨_, .write fs m ino b .refl⟩

theorem Via.unlink {p : Path} (h : fs.unlink p = some fs') : Via umask fs fs' := fun m => ⟨_, .unlink fs fs' m p .refl h⟩

theorem via_openOutput {force : Bool} {out : Output} {sink : Sink} (h : openOutput fs force out = some (fs', sink)) : Via umask fs fs' := by
  unfold openOutput at h
  cases out with
  | stdout => cases h; exact .refl _
  | file p =>
    simp only at h
    split at h
    case h_2 => cases h
    rename_i f hd h1
    cases h
    split at h1
    · unfold FS.createTrunc at h1
      split at h1
      · cases h1
      · rename_i n _
        split at h1
        · cases h1; exact .create ‹_›
        · cases h1; exact .write _ _
        · cases h1; exact .refl _
        · cases h1
    · obtain ⟨h3, rfl, -⟩ := GenKeys.createNew_spec h1
      exact .create h3

theorem via_write (st : State) (sink : Sink) (a b : Bytes) : Via umask st.fs (st.write sink a b).fs := by
  unfold State.write
  split
  · exact .write _ _
  · exact .refl _
  · exact .refl _

theorem via_step {cfg : Config} {st st' : State} {l : Label} (h : Step cfg st l st') : Via umask st.fs st'.fs := by
  cases h
  case openOutput h _ _ _ => exact via_openOutput h
  case write => exact via_write _ _ _ _
  case success => exact via_write _ _ _ _
  case failure => exact via_write _ _ _ _
  case panic => exact via_write _ _ _ _
  case progressPanic => exact via_write _ _ _ _
  case failedDelete h => exact .unlink h
  case deleteInput h => exact .unlink h
  all_goals exact .refl _

theorem via_run {cfg : Config} {st st' : State} {ls : List Label} (h : Run cfg st ls st') : Via umask st.fs st'.fs := by
  induction h with
  | refl => exact .refl _
  | step ls t l u _ hs ih => exact ih.trans (via_step hs)

/-- What key generation does between two moments. -/
structure ViaWorld (umask : Mode) (w w' : GenKeys.World) : Prop where
  fs : Via umask w.fs w'.fs
  past : ∀ q ∈ w'.past, q ∈ w.past ∨ Via umask w.fs q.1

theorem ViaWorld.trans {a b c : GenKeys.World} (h1 : ViaWorld umask a b) (h2 : ViaWorld umask b c) : ViaWorld umask a c where
  fs := h1.fs.trans h2.fs
  past q hq := by
    rcases h2.past q hq with h | h
    · exact h1.past q h
    · exact .inr (h1.fs.trans h)

theorem via_put (w : GenKeys.World) (sink : Sink) (b : Bytes) : Via umask w.fs (GenKeys.World.put w sink b).fs := by
  unfold GenKeys.World.put
  split
  · exact .write _ _
  · exact .refl _
  · exact .refl _

theorem put_past (w : GenKeys.World) (sink : Sink) (b : Bytes) : (GenKeys.World.put w sink b).past = w.past := by
  unfold GenKeys.World.put
  split <;> rfl

theorem via_writeAll (w : GenKeys.World) (sink : Sink) (b : Bytes) : ViaWorld umask w (GenKeys.writeAll w sink b).2 := by
  have key : ∀ (w : GenKeys.World) (fates : List (Option Nat)) (b : Bytes),
      ViaWorld umask w (GenKeys.World.put { w with fates := fates, past := w.past ++ w.during sink b } sink b) := by
    intro w fates b
    refine ⟨via_put { w with fates := fates, past := w.past ++ w.during sink b } sink b, fun q hq => ?_⟩
    rw [put_past] at hq
    rcases List.mem_append.mp hq with h | h
    · exact .inl h
    · right
      obtain ⟨k, -, rfl⟩ := List.mem_map.mp h
      exact via_put w sink _
  unfold GenKeys.writeAll
  split
  · exact key _ _ _
  · exact key _ _ _

theorem via_writeFile (w : GenKeys.World) (force : Bool) (out : Output) (b : Bytes) :
    ViaWorld umask w (GenKeys.writeFile w force out b).2 := by
  unfold GenKeys.writeFile
  split
  · exact ⟨.refl _, fun q hq => .inl hq⟩
  · split
    · exact ⟨.refl _, fun q hq => .inl hq⟩
    · rename_i fs sink ho
      refine ViaWorld.trans (b := { w with fs := fs, fates := w.fates.tail }) ⟨via_openOutput ho, fun q hq => .inl hq⟩ (via_writeAll _ _ _)

theorem via_keygen (sha512 : Bytes → Bytes) (force : Bool) (pairs : List (Cli.KeyPairOutputStreams × Bytes × Bytes)) (w : GenKeys.World) :
    ViaWorld umask w (GenKeys.generateKeyPairFiles sha512 force pairs w).2 :=
  GenKeys.genPairs_rel (ViaWorld umask) (fun _ => ⟨.refl _, fun _ h => .inl h⟩) (fun _ _ _ => ViaWorld.trans)
    (fun _ _ _ => ⟨.refl _, fun _ h => .inl h⟩) _ _ _ _ _ _ fun _ _ _ _ => via_writeFile _ _ _ _

theorem via_reaches {p : Program.Start} {mo : Program.Moment} (h : Program.Reaches p mo) : Via umask p.fs mo.fs := by
  have hprint : ∀ ui text mo, Program.Prints p ui text mo → Via umask p.fs mo.fs := by
    intro ui text mo h
    cases h <;> exact .refl _
  cases h with
  | start => exact .refl _
  | refused => exact .refl _
  | parsePanic => exact .refl _
  | crypt _ _ _ _ _ _ st _ hr => exact via_run hr
  | keygen streams force ui C seeds _ _ _ =>
    have hv := (via_keygen (umask := umask) p.sha512 force (streams.zip (seeds.map C.keypair)) ⟨ui.term, p.fs, [], p.fates, []⟩).fs
    unfold Program.keygenEnd
    split <;> (rename_i heq; rw [heq] at hv; exact hv)
  | keygenDuring streams force ui C seeds fs stdout _ _ _ hm =>
    rcases (via_keygen (umask := umask) p.sha512 force (streams.zip (seeds.map C.keypair)) ⟨ui.term, p.fs, [], p.fates, []⟩).past _ hm with h | h
    · cases h
    · exact h
  | keygenFails => exact .refl _
  | help _ _ _ h => exact hprint _ _ _ h
  | version _ _ _ h => exact hprint _ _ _ h

end Rypt.Permissions
