import Verif.Proofs.CrashProveRun

/-! Without a mark the sequential `Prove` succeeds; so when it panics the concurrent one does. -/

set_option linter.unusedSectionVars false

namespace GkrMimc

open Spec Finset

variable {F : Type} [Field F] [DecidableEq F]

theorem subProver_kind {p : MProver F} {w : Nat} {sp : SProver F} (h : p.subProver w = .ok sp) : SameKind sp (newSProver [] [] [] p.gates p.statics) := by
  unfold MProver.subProver at h
  obtain ⟨a, _, h⟩ := bind_eq_ok.1 h
  obtain ⟨b, _, h⟩ := bind_eq_ok.1 h
  obtain ⟨c, _, h⟩ := bind_eq_ok.1 h
  simp only [go_pure, Except.ok.injEq] at h
  subst h
  exact ⟨rfl, rfl, rfl, rfl, rfl⟩

theorem startT_some {p : MProver F} {w : Nat} {sp : SProver F} (h : startT p w = some sp) :
    p.subProver w = .ok sp ∧ ∃ d, sp.dims = .ok d := by
  unfold startT at h
  rw [goOk_some] at h
  obtain ⟨sp', h1, h⟩ := bind_eq_ok.1 h
  obtain ⟨d, h2, h⟩ := bind_eq_ok.1 h
  simp only [go_pure, Except.ok.injEq] at h
  subst h
  exact ⟨h1, d, h2⟩

section
variable {H : List F → F} {b bN n : Nat} {W0 : Nat → Option (SProver F)} {base0 : SProver F}

/-- As long as main has no mark, the sequential rounds succeed. -/
theorem states_rounds (h0 : ∀ w < n, ∀ sp, W0 w = some sp → SameKind sp base0) (hn : 0 < n) {ws : Nat → SProver F}
    (hws : ∀ w < n, W0 w = some (ws w)) : ∀ k h, (statesT H b n W0 base0 k).hist = some h →
    ∃ X : Nat → SProver F, (∀ w < n, (statesT H b n W0 base0 k).W w = some (X w)) ∧
    (forN k (tab n ws, ([] : List (List F)), ([] : List F)) fun k s => do
      let msgs ← mapGo (fun (x : SProver F × (Nat × Nat)) => workerEvals x.2.1 k x.1) (s.1.zip (tab n fun _ => (b, bN)))
      let evals ← consumeAccumulate msgs
      let c ← interpolateOnRange evals
      let r := H c
      return ((s.1.zip (tab n fun _ => (b, bN))).map (fun x => workerFold x.2.1 k x.1 r), s.2.1 ++ [c], s.2.2 ++ [r])) = .ok (tab n X, h.1, h.2) := by
  intro k
  induction k with
  | zero =>
    intro h hh
    simp only [statesT, Option.some.injEq] at hh
    subst hh
    exact ⟨ws, hws, by simp⟩
  | succ k ih =>
    intro h hh
    have hh' : histT H (statesT H b n W0 base0 k).hist ((statesT H b n W0 base0 k).c b n k) = some h := hh
    simp only [histT, Option.bind_eq_some_iff, Option.map_eq_some_iff] at hh'
    obtain ⟨h', hk, c, hc, rfl⟩ := hh'
    obtain ⟨X, hX, hrun⟩ := ih h' hk
    have hc' := hc
    simp only [StateT.c, Option.bind_eq_some_iff, goOk_some] at hc'
    obtain ⟨s, hs, hint⟩ := hc'
    unfold sumT at hs
    split_ifs at hs with hall
    rw [List.all_eq_true] at hall
    have hE : ∀ w < n, ∃ e, workerEvals b k (X w) = .ok e := by
      intro w hw
      have := hall w (List.mem_range.2 hw)
      dsimp only at this
      rw [hX w hw, Option.isSome_iff_exists] at this
      obtain ⟨e, he⟩ := this
      simp only [evalsT, Option.bind_some, goOk_some] at he
      exact ⟨e, he⟩
    classical
    let E : Nat → List F := fun w => if hw : w < n then (hE w hw).choose else []
    have hEw : ∀ w < n, workerEvals b k (X w) = .ok (E w) := by
      intro w hw
      simp only [E, dif_pos hw]
      exact (hE w hw).choose_spec
    have hev : ∀ w < n, evalsT b k ((statesT H b n W0 base0 k).W w) = some (E w) := by
      intro w hw
      simp only [evalsT, hX w hw, Option.bind_some, hEw w hw, goOk]
    have hL : ∀ w < n, (E w).length = lenT b k (statesT H b n W0 base0 k).base := fun w hw => statesT_len h0 k hw _ (hev w hw)
    refine ⟨fun w => workerFold b k (X w) (H c), ?_, ?_⟩
    · intro w hw
      simp only [statesT, stepT, hX w hw, Option.bind_some, hEw w hw, goOk, Option.map_some, hc, chalT]
    · rw [forN_succ, hrun, ok_bind]
      have hz : (tab n X).zip (tab n fun _ => (b, bN)) = tab n fun w => (X w, (b, bN)) := by
        rw [List.zip, zipWith_tab]
      simp only [hz]
      rw [mapGo_tab _ n (fun w => (X w, (b, bN))) E (fun w hw => hEw w hw), ok_bind]
      have he : tab n E = tab n (fun w => tab (lenT b k (statesT H b n W0 base0 k).base) fun t => (E w).getD t 0) := by
        apply tab_congr; intro w hw
        conv_lhs => rw [eq_tab (E w) 0, hL w hw]
      rw [he, consumeAccumulate_tab _ _ hn, ok_bind]
      have hsum : s = tab (lenT b k (statesT H b n W0 base0 k).base) fun t => ∑ w ∈ range n, (E w).getD t 0 := by
        rw [← Option.some.inj hs]
        apply tab_congr; intro t _
        rw [← tab_sum n (fun w => (E w).getD t 0)]
        congr 1
        apply tab_congr; intro w hw
        dsimp only
        rw [hev w hw]
        rfl
      rw [← hsum, hint, ok_bind]
      simp only [go_pure, tab_map]

theorem merged_consume {n : Nat} (hn : 0 < n) {W : Nat → Option (SProver F)} {X : Nat → SProver F} (hX : ∀ w < n, W w = some (X w))
    {s : List F × List F × List F} (h : mergedT n W (List.range n) = some s) :
    consumeMergeProvers n ((List.range n).zip (tab n X)) = .ok (newSProver s.1 s.2.1 s.2.2 (X 0).gates (X 0).statics) := by
  have hz : (List.range n).zip (tab n X) = tab n (fun s => (s, X s)) := by
    have : List.range n = tab n id := by simp [tab]
    rw [this, List.zip, zipWith_tab]; rfl
  have hz2 : tab n (fun s => (s, X s)) = (0, X 0) :: tab (n - 1) (fun s => (s + 1, X (s + 1))) := by
    obtain ⟨k, rfl⟩ : ∃ k, n = k + 1 := ⟨n - 1, by omega⟩
    rw [tab_succ]; rfl
  unfold mergedT at h
  split_ifs at h with hall
  rw [List.all_eq_true] at hall
  have hh : ∀ w < n, idx (X w).vL 0 = .ok ((headT (W w)).getD 0).1 ∧ idx (X w).vR 0 = .ok ((headT (W w)).getD 0).2.1 ∧
      idx (X w).eq 0 = .ok ((headT (W w)).getD 0).2.2 := by
    intro w hw
    have := hall w (List.mem_range.2 hw)
    rw [Option.isSome_iff_exists] at this
    obtain ⟨x, hx⟩ := this
    rw [hx]
    rw [hX w hw] at hx
    exact headT_some hx
  have key : ∀ j ≤ n, forEach (tab j (fun s => (s, X s)))
      (List.replicate n (0 : F), List.replicate n (0 : F), List.replicate n (0 : F)) (fun ip s => mergeMsg ip.1 ip.2 s) =
      .ok (mergedTab n (List.range j) fun w => ((headT (W w)).getD 0).1, mergedTab n (List.range j) fun w => ((headT (W w)).getD 0).2.1,
        mergedTab n (List.range j) fun w => ((headT (W w)).getD 0).2.2) := by
    intro j
    induction j with
    | zero => intro _; simp [replicate_eq_tab, mergedTab]
    | succ j ih =>
      intro hj
      obtain ⟨e1, e2, e3⟩ := hh j (by omega)
      rw [tab_succ', forEach_append, ih (by omega), ok_bind, forEach_cons,
        mergeMsg_ok (l := fun w => ((headT (W w)).getD 0).1) (r := fun w => ((headT (W w)).getD 0).2.1)
          (e := fun w => ((headT (W w)).getD 0).2.2) (show j < n by omega) e1 e2 e3,
        ok_bind, forEach_nil, List.range_succ]
  rw [hz, hz2, consumeMergeProvers]
  simp only
  rw [← hz2]
  have k1 := key n le_rfl
  have h' := Option.some.inj h
  subst h'
  refine (bind_eq_ok.2 ⟨_, k1, ?_⟩)
  rfl

end

/-- When the sequential `Prove` panics after the workers have started, the program with marks returns the mark. -/
theorem prove_mark {H : List F → F} {p : MProver F} {nCore : Int} {e : Abort} (h : p.prove H nCore = .error e)
    (heven : EvenChunks p) {eq0 vL0 : List F} {g : Nat} (h1 : idx p.eq 0 = .ok eq0) (h2 : idx p.vL 0 = .ok vL0)
    (h3 : goDiv (p.eq.length * vL0.length) (p.eq.length * eq0.length) = .ok g) (hc : 1 ≤ nCore)
    (he : e ≠ .deadlock ∨ ∀ d, (p.subProver 0 >>= SProver.dims) = .ok d →
      2 * d.1 + d.2 = 2 * log2Ceil g + log2Ceil ((p.eq.length * eq0.length : Nat) : Int) - log2Ceil p.eq.length) :
    ∃ b K, K = 2 * log2Ceil g + log2Ceil ((p.eq.length * eq0.length : Nat) : Int) - log2Ceil p.eq.length ∧
      (∀ w < p.eq.length, ∀ d, (p.subProver w >>= SProver.dims) = .ok d → d.1 = b ∧ 2 * d.1 + d.2 = K) ∧
      ∀ z, outT H (log2Ceil g) (log2Ceil p.eq.length) z
        (statesT H b p.eq.length (startT p) (newSProver [] [] [] p.gates p.statics) K).hist
        (lastT H b p.eq.length K (startT p) (newSProver [] [] [] p.gates p.statics)) = z := by
  have hn : 0 < p.eq.length := idx_ok_lt h1
  have h0 : ∀ w < p.eq.length, ∀ sp, startT p w = some sp → SameKind sp (newSProver [] [] [] p.gates p.statics) :=
    fun w _ sp hsp => subProver_kind (startT_some hsp).1
  cases hd0 : (p.subProver 0 >>= SProver.dims) with
  | error e' =>
    have hall : ∀ w < p.eq.length, (p.subProver w >>= SProver.dims) = .error e' := fun w hw => (heven w hw 0 hn).trans hd0
    refine ⟨0, _, rfl, fun w hw d hd => (by rw [hall w hw] at hd; cases hd), fun z => ?_⟩
    have hnone : ∀ k, ∀ w < p.eq.length, (statesT H 0 p.eq.length (startT p) (newSProver [] [] [] p.gates p.statics) k).W w = none := by
      intro k
      induction k with
      | zero =>
        intro w hw
        change startT p w = none
        by_contra hne
        obtain ⟨sp, hsp⟩ := Option.ne_none_iff_exists'.1 hne
        obtain ⟨a1, d, a2⟩ := startT_some hsp
        have := hall w hw
        rw [a1, ok_bind, a2] at this
        cases this
      | succ k ih =>
        intro w hw
        simp only [statesT, stepT, ih w hw, Option.bind_none]
    have hl : lastT H 0 p.eq.length (2 * log2Ceil g + log2Ceil ((p.eq.length * eq0.length : Nat) : Int) - log2Ceil p.eq.length) (startT p)
        (newSProver [] [] [] p.gates p.statics) = none := by
      unfold lastT mergedT
      rw [if_neg]
      · rfl
      · intro hc
        have := List.all_eq_true.1 hc 0 (List.mem_range.2 hn)
        rw [hnone _ 0 hn] at this
        simp [headT] at this
    rw [hl]
    unfold outT
    split
    · simp_all
    · rfl
  | ok d =>
    obtain ⟨b, bN⟩ := d
    have hall : ∀ w < p.eq.length, (p.subProver w >>= SProver.dims) = .ok (b, bN) := fun w hw => (heven w hw 0 hn).trans hd0
    have hex : ∀ w < p.eq.length, ∃ sp, p.subProver w = .ok sp ∧ sp.dims = .ok (b, bN) := fun w hw => bind_eq_ok.1 (hall w hw)
    classical
    let ws : Nat → SProver F := fun w => if hw : w < p.eq.length then (hex w hw).choose else newSProver [] [] [] [] []
    have hw1 : ∀ w < p.eq.length, p.subProver w = .ok (ws w) := fun w hw => by
      simp only [ws, dif_pos hw]; exact (hex w hw).choose_spec.1
    have hw2 : ∀ w < p.eq.length, (ws w).dims = .ok (b, bN) := fun w hw => by
      simp only [ws, dif_pos hw]; exact (hex w hw).choose_spec.2
    have hst : ∀ w < p.eq.length, startT p w = some (ws w) := fun w hw => by
      simp [startT, hw1 w hw, hw2 w hw, ok_bind, goOk]
    have hsem : semaphoreSection nCore p.eq.length = .ok () := by
      unfold semaphoreSection
      rw [if_neg (by omega), if_neg (by omega)]
    unfold MProver.prove at h
    simp only [h1, h2, ok_bind, h3, hsem, gen_ok ws _ hw1] at h
    rw [mapGo_tab _ _ ws (fun _ => (b, bN)) hw2, ok_bind] at h
    by_cases hd : ((tab p.eq.length fun _ => (b, bN)).any fun d => decide (2 * d.1 + d.2 ≠ 2 * log2Ceil g +
        log2Ceil ((p.eq.length * eq0.length : Nat) : Int) - log2Ceil p.eq.length)) = true
    · rw [if_pos hd] at h
      rcases he with he | he
      · exact absurd (Except.error.inj h).symm he
      · have := he _ hd0
        rw [List.any_eq_true] at hd
        obtain ⟨d, hd1, hd2⟩ := hd
        obtain ⟨w, _, rfl⟩ := List.mem_map.1 hd1
        exact absurd this (by simpa using hd2)
    rw [if_neg hd] at h
    have hK : 2 * b + bN = 2 * log2Ceil g + log2Ceil ((p.eq.length * eq0.length : Nat) : Int) - log2Ceil p.eq.length := by
      by_contra hc
      apply hd
      rw [List.any_eq_true]
      exact ⟨(b, bN), List.mem_map.2 ⟨0, List.mem_range.2 hn, rfl⟩, by simpa using hc⟩
    rw [← hK] at h
    refine ⟨b, 2 * b + bN, hK, fun w hw d hd => ?_, fun z => ?_⟩
    · rw [hall w hw] at hd
      obtain rfl := Except.ok.inj hd
      exact ⟨rfl, rfl⟩
    · cases hh : (statesT H b p.eq.length (startT p) (newSProver [] [] [] p.gates p.statics) (2 * b + bN)).hist with
      | none => rfl
      | some s =>
        obtain ⟨X, hX, hrun⟩ := states_rounds (H := H) (b := b) (bN := bN) h0 hn hst _ s hh
        rw [hrun, ok_bind] at h
        unfold lastT
        cases hm : mergedT p.eq.length (statesT H b p.eq.length (startT p) (newSProver [] [] [] p.gates p.statics) (2 * b + bN)).W
            (List.range p.eq.length) with
        | none => rfl
        | some m =>
          have hk := statesT_same (H := H) (b := b) h0 (2 * b + bN) 0 hn _ (hX 0 hn)
          dsimp only at h
          rw [merged_consume hn hX hm, ok_bind, hk.gates, hk.statics] at h
          simp only [Option.map_some, outT]
          cases hr : rounds H SProver.getEvalsOnHPrime SProver.foldHPrime (log2Ceil p.eq.length) (newSProver m.1 m.2.1 m.2.2
            (statesT H b p.eq.length (startT p) (newSProver [] [] [] p.gates p.statics) (2 * b + bN)).base.gates
            (statesT H b p.eq.length (startT p) (newSProver [] [] [] p.gates p.statics) (2 * b + bN)).base.statics) with
          | error e' => rfl
          | ok t =>
            rw [hr, ok_bind] at h
            dsimp only
            cases hf : t.1.finalClaims with
            | error e' => rfl
            | ok fc =>
              rw [hf, ok_bind] at h
              cases h

theorem crashes_cons {M V : Type} {E : Abort → Prop} {B : Nat} {s s1 : Conf M V} (h : Solo s) (h1 : exec s 0 = some s1) (hB : Crashes E B s1) :
    Crashes E (B + 1) s := by
  intro n s' hr
  rcases reachIn_head h h1 hr with ⟨rfl, rfl⟩ | ⟨m, rfl, hm⟩
  · refine ⟨by omega, .inr ⟨h.1, ⟨s1, h.1, .inl ⟨0, h1⟩⟩, ?_⟩⟩
    rintro ⟨r, hr⟩
    simp [exec, hr] at h1
  · obtain ⟨h2, h3⟩ := hB m s' hm
    exact ⟨by omega, h3⟩

theorem crashes_over {M V : Type} {E : Abort → Prop} {e : Abort} (he : E e) {s : Conf M V} (h : s.crashed = some e) : Crashes E 0 s := by
  have key : ∀ n s', ReachIn s n s' → n = 0 ∧ s' = s := by
    intro n s' hr
    induction hr with
    | zero => exact ⟨rfl, rfl⟩
    | step _ hs ih =>
      have := hs.1
      rw [ih.2, h] at this
      cases this
  intro n s' hr
  obtain ⟨rfl, rfl⟩ := key n s' hr
  exact ⟨le_rfl, .inl ⟨e, h, he⟩⟩

/-- A panic of main at once. -/
theorem crashes_now {M V : Type} {E : Abort → Prop} {e : Abort} (he : E e) (m : M) (unit : V) (chans : Nat → Chan V) (nC : Nat) (wgs : Nat → Nat)
    (nW : Nat) : Crashes E 1 (soloConf unit (.crash e) chans nC wgs nW m) := by
  refine crashes_cons (soloConf_solo _ _ _ _ _ _ _) (s1 := (soloConf unit (.crash e) chans nC wgs nW m).panic e) ?_ (crashes_over he rfl)
  simp [exec, soloConf]

/-- When the program with marks returns the mark, the concurrent `Prove` panics. -/
theorem proveP_crashes_late {H : List F → F} {p : MProver F} {nCore : Int} {e : Abort} (h : p.prove H nCore = .error e)
    (heven : EvenChunks p) {eq0 vL0 : List F} {g : Nat} (h1 : idx p.eq 0 = .ok eq0) (h2 : idx p.vL 0 = .ok vL0)
    (h3 : goDiv (p.eq.length * vL0.length) (p.eq.length * eq0.length) = .ok g) (hc : 1 ≤ nCore)
    (he : e ≠ .deadlock ∨ ∀ d, (p.subProver 0 >>= SProver.dims) = .ok d →
      2 * d.1 + d.2 = 2 * log2Ceil g + log2Ceil ((p.eq.length * eq0.length : Nat) : Int) - log2Ceil p.eq.length) :
    ∃ bound, Crashes AnyErr bound (startOf (p.proveP H nCore) () .tok) := by
  have hn : 0 < p.eq.length := idx_ok_lt h1
  obtain ⟨b, K, hK, hd, hz⟩ := prove_mark h heven h1 h2 h3 hc he
  have h0 : ∀ w < p.eq.length, ∀ sp, startT p w = some sp → SameKind sp (newSProver [] [] [] p.gates p.statics) :=
    fun w _ sp hsp => subProver_kind (startT_some hsp).1
  obtain ⟨B, g₁⟩ := proveT_good (H := H) (b := b) (K := K) (bG := log2Ceil g) (logN := log2Ceil p.eq.length) (z := .tok) h0 hn
    (show 1 ≤ nCore by omega)
  obtain ⟨B', g₂⟩ := proveT_good (H := H) (b := b) (K := K) (bG := log2Ceil g) (logN := log2Ceil p.eq.length) (z := .elem 0) h0 hn
    (show 1 ≤ nCore by omega)
  refine ⟨_, crashes_of_two (upto_start (proveP_upto h1 h2 h3 hK hd .tok nCore) () .tok)
    (upto_start (proveP_upto h1 h2 h3 hK hd (.elem 0) nCore) () .tok) g₁ g₂ ?_⟩
  rintro u v w huv huw hv hw ⟨r, hr⟩
  have e1 := huv.gs 0
  have e2 := huw.gs 0
  rw [hv, hz, hr] at e1
  rw [hw, hz, hr] at e2
  cases e1
  cases e2

/-- When the sequential `Prove` panics, the concurrent one does, under all schedules. -/
theorem proveP_crashes {H : List F → F} {p : MProver F} {nCore : Int} {e : Abort} (h : p.prove H nCore = .error e) (he : e ≠ .deadlock)
    (heven : EvenChunks p) : ∃ bound, Crashes AnyErr bound (startOf (p.proveP H nCore) () .tok) := by
  cases h1 : idx p.eq 0 with
  | error e1 =>
    refine ⟨1, ?_⟩
    rw [start_eq]
    unfold MProver.proveP
    rw [h1]
    exact crashes_now trivial _ _ _ _ _ _
  | ok eq0 =>
  cases h2 : idx p.vL 0 with
  | error e1 =>
    refine ⟨1, ?_⟩
    rw [start_eq]
    unfold MProver.proveP
    rw [h1, liftGo_ok, h2]
    exact crashes_now trivial _ _ _ _ _ _
  | ok vL0 =>
  cases h3 : goDiv (p.eq.length * vL0.length) (p.eq.length * eq0.length) with
  | error e1 =>
    refine ⟨1, ?_⟩
    rw [start_eq]
    unfold MProver.proveP
    rw [h1, liftGo_ok, h2, liftGo_ok, h3]
    exact crashes_now trivial _ _ _ _ _ _
  | ok g =>
  have hn : 0 < p.eq.length := idx_ok_lt h1
  rcases lt_trichotomy nCore 0 with hc | hc | hc
  · refine ⟨1 + 1 + 1, ?_⟩
    rw [start_eq]
    unfold MProver.proveP
    rw [h1, liftGo_ok, h2, liftGo_ok, h3, liftGo_ok]
    refine crashes_cons (soloConf_solo _ _ _ _ _ _ _) (soloConf_make _ _ _ _ _ _ _ _)
      (crashes_cons (soloConf_solo _ _ _ _ _ _ _) (soloConf_make _ _ _ _ _ _ _ _) ?_)
    unfold newSemaphoreP
    rw [if_pos hc]
    exact crashes_now trivial _ _ _ _ _ _
  · unfold MProver.prove at h
    subst hc
    simp only [h1, h2, ok_bind, h3, semaphoreSection, lt_irrefl, if_false, hn, and_self, if_true] at h
    exact absurd (Except.error.inj h).symm he
  · exact proveP_crashes_late h heven h1 h2 h3 (by omega) (.inl he)

end GkrMimc
