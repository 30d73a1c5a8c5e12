import Verif.Props.Rerun
import Verif.Props.ProgramFailureSamples

/-! Cases that meet the hypotheses of the theorems about running again (C119). -/

namespace Rypt.Props.ProgramSample

open Getopts Cli UI Filesystem CryptStreams HeaderCrypto Program

/-- `rypt -d f.rypt`, and the file cannot be opened just then. -/
theorem failed_once (F : Bytes) : EndsTidily (decStart F) ⟨(decStart F).fs, [], some 1, none⟩ := by
  obtain ⟨policy, ui, hp⟩ := decParse F
  have key : ∃ ls st, Run ((decStart F).config [⟨.file "f.rypt".toList, some (.file "f".toList)⟩] policy false (.decrypt [pw]) ui)
      (State.start ((decStart F).config [⟨.file "f.rypt".toList, some (.file "f".toList)⟩] policy false (.decrypt [pw]) ui) (decStart F).fs)
        ls st ∧ (⟨(decStart F).fs, [], some 1, none⟩ : Moment) = ⟨st.fs, st.stdout, exitOf st.pc, none⟩ ∧
          ∀ s, Label.outputNotDeleted s ∉ ls := by
    generalize hcfg : (decStart F).config [⟨.file "f.rypt".toList, some (.file "f".toList)⟩] policy false (.decrypt [pw]) ui = cfg
    have r0 : Run cfg (State.start cfg (decStart F).fs) [] _ := .refl
    subst hcfg
    have r1 := Run.step _ _ _ _ r0 (.openInputFails _ _ _ _ rfl rfl rfl)
    have r2 := Run.step _ _ _ _ r1 (.failedNoOutput _ _ rfl)
    have r3 := Run.step _ _ _ _ r2 (.endOfFile _ rfl)
    have r4 := Run.step _ _ _ _ r3 (.noCleanups _ rfl rfl rfl)
    exact ⟨_, _, r4, rfl, by simp⟩
  obtain ⟨ls, st, hr, hm, hdel⟩ := key
  refine ⟨by rw [hm]; exact .crypt _ _ _ _ _ _ _ hp hr, .inr rfl, fun streams policy' force d ui' hp' => ?_⟩
  have h1 : (⟨[⟨.file "f.rypt".toList, some (.file "f".toList)⟩], policy, false, .decrypt [pw], ui⟩ :
      List CryptStreams.Stream × CleanupPolicy × Bool × DirectionOpts × Ui) = ⟨streams, policy', force, d, ui'⟩ := by
    rw [hp] at hp'
    simp only [Prod.mk.injEq, Res.ok.injEq, Command.cryptStreams.injEq] at hp'
    obtain ⟨⟨rfl, rfl, rfl, rfl⟩, rfl⟩ := hp'
    rfl
  cases h1
  exact ⟨ls, st, hr, hm, hdel⟩

/-- The second attempt succeeds, and `failed_run_can_be_completed` says what is there then. -/
example : ∃ F m', EncryptionOf Toy.lib ⟨⟨[(1, .password (Spec.utf8 "pw".toList))], 1, 1⟩, false⟩ [1, 2, 3] F ∧
    Reaches (decStart F) m' ∧ m'.exit = some 0 ∧ ∃ q G d t, OutputName false "rypt".toList "f.rypt".toList .decrypt (some q) ∧
      m'.fs.holds q G ∧ Asked (decStart F) decOccs t d ∧ ResultOf Toy.lib F G d := by
  obtain ⟨F, m', hF, hre, hx⟩ := decryption_runs
  refine ⟨F, m', hF, hre, hx, ?_⟩
  obtain ⟨q, G, d, t, h1, h2, -, h3⟩ := failed_run_can_be_completed (decStart F) Toy.lib_lawful (fs_wf _ _ _ _) .decrypt decOccs ["f.rypt".toList]
    (decConverts F) (by simp [Given, decOccs]) (decReady F) (decNoChain F) (List.pairwise_singleton _ _) _ (failed_once F)
    (decStart F) Toy.lib_lawful rfl decOccs ["f.rypt".toList] (decConverts F) (by simp [Given, decOccs]) "rypt".toList
    (.inl ⟨by simp [Given, decOccs], rfl⟩) (fun _ h => suffix_default (by simp [Given, decOccs]) h) (List.Sublist.refl _)
    (fun a ha => ⟨fun _ q hq => by
      rw [List.mem_singleton.mp ha] at hq
      have := output_name_unique _ _ _ _ _ _ hq (decName false)
      cases this
      rfl, fun _ => ha⟩) m' hre hx "f.rypt".toList (by simp) F ⟨1, rfl, rfl⟩
  refine ⟨q, G, d, t, h1, h2, ?_⟩
  rcases h3 with ⟨h3, -⟩ | ⟨-, h3⟩
  · exact absurd (by simp) h3
  · exact h3

end Rypt.Props.ProgramSample
