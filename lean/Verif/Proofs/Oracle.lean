import Verif.Proofs.TranscriptRun

/-! A random oracle that is asked adaptively gives few unlucky answers. -/

set_option linter.unusedSectionVars false

namespace GkrMimc

open Spec Finset Polynomial

variable {F : Type} [Field F] [DecidableEq F]

theorem oracleLog_snoc (next : List F → Query F) (tape : List F) (x : F) : oracleLog next (tape ++ [x]) =
    oracleLog next tape ++ [(next ((oracleLog next tape).map Prod.snd),
      ((oracleLog next tape).lookup (next ((oracleLog next tape).map Prod.snd))).getD x)] := by
  unfold oracleLog
  rw [List.foldl_append]
  rfl

theorem oracleLog_length (next : List F → Query F) (tape : List F) : (oracleLog next tape).length = tape.length := by
  induction tape using List.reverseRecOn with
  | nil => rfl
  | append_singleton tape x ih => rw [oracleLog_snoc]; simp [ih]

/-- Each question is the one that follows from the answers before. -/
theorem oracleLog_question (next : List F → Query F) (tape : List F) (i : Nat) (hi : i < (oracleLog next tape).length) :
    (oracleLog next tape)[i].1 = next (((oracleLog next tape).map Prod.snd).take i) := by
  induction tape using List.reverseRecOn with
  | nil => simp [oracleLog] at hi
  | append_singleton tape x ih =>
    simp only [oracleLog_snoc] at hi ⊢
    by_cases h : i < (oracleLog next tape).length
    · rw [List.getElem_append_left h, ih h, List.map_append, List.take_append_of_le_length (by simp; omega)]
    · have e : i = (oracleLog next tape).length := by simp at hi; omega
      subst e
      rw [List.getElem_append_right (by omega)]
      simp

theorem mem_of_lookup {α β : Type} [DecidableEq α] {l : List (α × β)} {a : α} {b : β} (h : l.lookup a = some b) : (a, b) ∈ l := by
  induction l with
  | nil => simp at h
  | cons x l ih =>
    obtain ⟨y, z⟩ := x
    rw [List.lookup_cons] at h
    by_cases e : a = y
    · subst e
      simp at h
      simp [h]
    · rw [show (a == y) = false by simpa using e] at h
      exact List.mem_cons_of_mem _ (ih h)

/-- An unlucky entry of the log goes back to an unlucky element of the tape. -/
theorem oracleLog_fresh (next : List F → Query F) (Bad : Query F → F → Prop) (tape : List F) (e : Query F × F)
    (he : e ∈ oracleLog next tape) (hb : Bad e.1 e.2) :
    ∃ i < tape.length, Bad (next ((oracleLog next (tape.take i)).map Prod.snd)) (tape.getD i 0) := by
  induction tape using List.reverseRecOn generalizing e with
  | nil => simp [oracleLog] at he
  | append_singleton tape x ih =>
    have old : ∀ e ∈ oracleLog next tape, Bad e.1 e.2 →
        ∃ i < (tape ++ [x]).length, Bad (next ((oracleLog next ((tape ++ [x]).take i)).map Prod.snd)) ((tape ++ [x]).getD i 0) := by
      intro e he hb
      obtain ⟨i, hi, h⟩ := ih e he hb
      refine ⟨i, by simp; omega, ?_⟩
      rw [List.take_append_of_le_length (by omega)]
      rw [List.getD_eq_getElem?_getD, List.getElem?_append_left hi, ← List.getD_eq_getElem?_getD]
      exact h
    rw [oracleLog_snoc, List.mem_append, List.mem_singleton] at he
    rcases he with he | rfl
    · exact old e he hb
    · cases hl : (oracleLog next tape).lookup (next ((oracleLog next tape).map Prod.snd)) with
      | some a =>
        rw [hl] at hb
        exact old _ (mem_of_lookup hl) hb
      | none =>
        rw [hl] at hb
        refine ⟨tape.length, by simp, ?_⟩
        rw [List.take_left, List.getD_eq_getElem?_getD, List.getElem?_append_right (by omega)]
        simpa using hb

/-- If for each question at most `d` answers are unlucky, then few tapes of length `Q` have an unlucky answer. -/
theorem oracle_count [Fintype F] (next : List F → Query F) (Bad : Query F → F → Prop) (d : Nat) (h : ∀ q, count (Bad q) ≤ d) (Q : Nat) :
    count (fun x : Fin Q → F => ∃ e ∈ oracleLog next (List.ofFn x), Bad e.1 e.2) ≤ Q * d * Fintype.card F ^ (Q - 1) := by
  refine le_trans (count_mono ?_) ((count_family (Finset.range Q) Q id (fun a ha => Finset.mem_range.1 ha)
    (fun _ pre a => Bad (next ((oracleLog next pre).map Prod.snd)) a) d (fun _ _ pre => h _)).trans (le_of_eq (by simp)))
  rintro x ⟨e, he, hb⟩
  obtain ⟨i, hi, h'⟩ := oracleLog_fresh next Bad _ e he hb
  exact ⟨i, by simpa using hi, h'⟩

/-- A transcript is its messages, each with its challenge. -/
theorem say_snoc (H : List (List F × F) → List F → F) (msgs : List (List F)) (j : Nat) (hj : j < msgs.length) :
    say H [] (msgs.take (j + 1)) = say H [] (msgs.take j) ++ [(msgs[j], H (say H [] (msgs.take j)) msgs[j])] := by
  rw [List.take_succ_eq_append_getElem hj, say_append]
  rfl

theorem zip_take_succ {α β : Type} (xs : List α) (ys : List β) (j : Nat) (h : j < xs.length) (h' : j < ys.length) :
    xs.zip (ys.take (j + 1)) = xs.zip (ys.take j) ++ [(xs[j], ys[j])] := by
  induction j generalizing xs ys with
  | zero =>
    obtain ⟨x, xs, rfl⟩ := List.exists_cons_of_length_pos h
    obtain ⟨y, ys, rfl⟩ := List.exists_cons_of_length_pos h'
    simp
  | succ j ih =>
    obtain ⟨x, xs, rfl⟩ := List.exists_cons_of_length_pos (Nat.zero_lt_of_lt h)
    obtain ⟨y, ys, rfl⟩ := List.exists_cons_of_length_pos (Nat.zero_lt_of_lt h')
    simp only [List.length_cons, Nat.add_lt_add_iff_right] at h h'
    rw [List.take_succ_cons, List.zip_cons_cons, ih xs ys h h']
    simp

/-- When the log of the adversary and of the verifier after it agrees with `H`, the verifier's questions are those of its
transcript, and are in the log. -/
theorem verifier_asks (A : Adversary F) (Q n nLayers : Nat) (tape : List F) (H : Query F → F)
    (hH : ∀ e ∈ oracleLog (A.thenVerifier Q n nLayers) tape, H e.1 = e.2)
    (o : List (List F) × List (List F) × GkrProof F)
    (ho : o = A.out (((oracleLog (A.thenVerifier Q n nLayers) tape).map Prod.snd).take Q))
    (hlen : tape.length = Q + (messages n nLayers o.2.2).length) :
    ∀ j, (hj : j ≤ (messages n nLayers o.2.2).length) →
      say (fun past msg => H ⟨o.1, o.2.1, past, msg⟩) [] ((messages n nLayers o.2.2).take j) =
        (messages n nLayers o.2.2).zip
          ((((oracleLog (A.thenVerifier Q n nLayers) tape).map Prod.snd).drop Q).take j) ∧
      ∀ (hj' : j < (messages n nLayers o.2.2).length),
        ((⟨o.1, o.2.1, say (fun past msg => H ⟨o.1, o.2.1, past, msg⟩) [] ((messages n nLayers o.2.2).take j),
          (messages n nLayers o.2.2)[j]⟩ : Query F),
          H ⟨o.1, o.2.1, say (fun past msg => H ⟨o.1, o.2.1, past, msg⟩) [] ((messages n nLayers o.2.2).take j),
          (messages n nLayers o.2.2)[j]⟩) ∈ oracleLog (A.thenVerifier Q n nLayers) tape := by
  set log := oracleLog (A.thenVerifier Q n nLayers) tape with hlog
  have hll : log.length = Q + (messages n nLayers o.2.2).length := by rw [hlog, oracleLog_length, hlen]
  set answers := log.map Prod.snd with hans
  have hal : answers.length = Q + (messages n nLayers o.2.2).length := by rw [hans, List.length_map, hll]
  set msgs := messages n nLayers o.2.2 with hmsgs
  set h : List (List F × F) → List F → F := fun past msg => H ⟨o.1, o.2.1, past, msg⟩ with hh
  have hquery : ∀ j, (hj : j < msgs.length) → (hq : say h [] (msgs.take j) = msgs.zip ((answers.drop Q).take j)) →
      ∃ hi : Q + j < log.length, log[Q + j].1 = ⟨o.1, o.2.1, say h [] (msgs.take j), msgs[j]⟩ := by
    intro j hj hq
    refine ⟨by omega, ?_⟩
    rw [show log[Q + j].1 = A.thenVerifier Q n nLayers (answers.take (Q + j)) from
      oracleLog_question _ _ _ (by rw [← hlog]; omega)]
    unfold Adversary.thenVerifier
    rw [if_neg (by rw [List.length_take]; omega)]
    dsimp only
    rw [List.take_take, Nat.min_eq_left (by omega), ← ho, ← hmsgs, hq]
    have e1 : (answers.take (Q + j)).length - Q = j := by rw [List.length_take]; omega
    rw [e1, List.getD_eq_getElem _ _ hj, List.drop_take, Nat.add_sub_cancel_left]
  intro j
  induction j with
  | zero =>
    intro _
    have h0 : say h [] (msgs.take 0) = msgs.zip ((answers.drop Q).take 0) := by simp [say]
    refine ⟨h0, fun hj' => ?_⟩
    obtain ⟨hi, hq⟩ := hquery 0 hj' h0
    rw [← hq, hH _ (List.getElem_mem hi)]
    exact List.getElem_mem hi
  | succ j ih =>
    intro hj
    obtain ⟨h1, h2⟩ := ih (by omega)
    obtain ⟨hi, hq⟩ := hquery j (by omega) h1
    have hval : h (say h [] (msgs.take j)) msgs[j] = log[Q + j].2 := by
      rw [← hH _ (List.getElem_mem hi), hq]
    have hstep : say h [] (msgs.take (j + 1)) = msgs.zip ((answers.drop Q).take (j + 1)) := by
      rw [say_snoc h msgs j (by omega), hval, h1]
      have hd : j < (answers.drop Q).length := by rw [List.length_drop]; omega
      rw [zip_take_succ msgs (answers.drop Q) j (by omega) hd]
      simp [hans]
    refine ⟨hstep, fun hj' => ?_⟩
    obtain ⟨hi, hq⟩ := hquery (j + 1) hj' hstep
    rw [← hq, hH _ (List.getElem_mem hi)]
    exact List.getElem_mem hi

end GkrMimc
