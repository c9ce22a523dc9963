import Verif.Proofs.Stall

/-! `Prove` when main and workers count different numbers of rounds: main waits on a channel on which nobody sends. -/

set_option linter.unusedSectionVars false

namespace GkrMimc

open Spec Finset

section
variable {M V : Type} {Z : Nat → Nat → Prop} {E : Abort → Prop} {S : V → Prop}

theorem uptoZ_loop_rel {σ σ' : Type} (R : σ → σ' → Prop) {body : Nat → σ → (σ → Prog M V) → Prog M V}
    {body' : Nat → σ' → (σ' → Prog M V) → Prog M V} {k : σ → Prog M V} {k' : σ' → Prog M V} (hk : ∀ s s', R s s' → UptoZ Z E S (k s) (k' s')) :
    ∀ (n j : Nat), (∀ i, j ≤ i → i < j + n → ∀ s s' next next', R s s' → (∀ s s', R s s' → UptoZ Z E S (next s) (next' s')) →
      UptoZ Z E S (body i s next) (body' i s' next')) → ∀ s s', R s s' → UptoZ Z E S (loopP body k j n s) (loopP body' k' j n s')
  | 0, _, _, s, s', hs => hk s s' hs
  | n + 1, j, h, s, s', hs => h j le_rfl (by omega) s s' _ _ hs fun s s' hs =>
    uptoZ_loop_rel R hk n (j + 1) (fun i h1 h2 => h i (by omega) (by omega)) s s' hs

theorem uptoZ_loop {σ : Type} {body body' : Nat → σ → (σ → Prog M V) → Prog M V} {k k' : σ → Prog M V} (hk : ∀ s, UptoZ Z E S (k s) (k' s))
    (n j : Nat) (h : ∀ i, j ≤ i → i < j + n → ∀ s next next', (∀ s, UptoZ Z E S (next s) (next' s)) → UptoZ Z E S (body i s next) (body' i s next'))
    (s : σ) : UptoZ Z E S (loopP body k j n s) (loopP body' k' j n s) :=
  uptoZ_loop_rel Eq (fun s s' hs => hs ▸ hk s) n j
    (fun i h1 h2 s s' next next' hs hn => hs ▸ h i h1 h2 s next next' fun s => hn s s rfl) s s rfl

theorem uptoZ_liftGo {α : Type} (x : Go α) {k : α → Prog M V} {q : Prog M V} (he : ∀ e, x = .error e → E e)
    (hk : ∀ a, x = .ok a → UptoZ Z E S (k a) q) : UptoZ Z E S (liftGo x k) q := by
  cases x with
  | error e => exact .crash e (he e rfl) q
  | ok a => exact hk a rfl

/-- Loops of different lengths, where the end of one is blocked against a round of the other. -/
theorem uptoZ_loop_stall {σ σ' : Type} (R : σ → σ' → Prop) {body : Nat → σ → (σ → Prog M V) → Prog M V}
    {body' : Nat → σ' → (σ' → Prog M V) → Prog M V} {k : σ → Prog M V} {k' : σ' → Prog M V}
    (h1 : ∀ i s s' next', UptoZ Z E S (k s) (body' i s' next')) (h2 : ∀ i s s' next, UptoZ Z E S (body i s next) (k' s'))
    (h : ∀ i s s' next next', R s s' → (∀ s s', R s s' → UptoZ Z E S (next s) (next' s')) → UptoZ Z E S (body i s next) (body' i s' next')) :
    ∀ (n n' j : Nat), n ≠ n' → ∀ s s', R s s' → UptoZ Z E S (loopP body k j n s) (loopP body' k' j n' s')
  | 0, 0, _, hn, _, _, _ => absurd rfl hn
  | 0, _ + 1, _, _, _, _, _ => h1 _ _ _ _
  | _ + 1, 0, _, _, _, _, _ => h2 _ _ _ _
  | n + 1, n' + 1, j, hn, s, s', hs => h j s s' _ _ hs fun s s' hs => uptoZ_loop_stall R h1 h2 h n n' (j + 1) (by omega) s s' hs

theorem uptoZ_solo {p q : Prog M V} (h : UptoZ Z E S p q) {unit : V} (hu : S unit) (chans : Nat → Chan V) (hc : ∀ c, ∀ x ∈ (chans c).buf, S x)
    (nC : Nat) (wgs : Nat → Nat) (nW : Nat) (m : M) :
    UptoConfZ Z E S (soloConf unit p chans nC wgs nW m) (soloConf unit q chans nC wgs nW m) :=
  ⟨rfl, rfl, rfl, rfl, rfl, rfl, rfl, uptoZ_update (fun _ => .ret _ hu) 0 h, hc⟩

theorem neverReturns_cons_ex {s s1 : Conf M V} (h : Solo s) (h1 : exec s 0 = some s1) (hB : ∃ B, NeverReturns B s1) : ∃ B, NeverReturns B s :=
  hB.elim fun B hB => ⟨B + 1, neverReturns_cons h h1 hB⟩

theorem neverReturns_fill (tok : V) (c N : Nat) (k : Unit → Prog M V) (nC : Nat) (wgs : Nat → Nat) (nW : Nat) (m : M) :
    ∀ (j r : Nat) (chans : Nat → Chan V), j + r = N → chans c = ⟨List.replicate j tok, N, false⟩ →
    (∃ B, NeverReturns B (soloConf tok (k ()) (Function.update chans c ⟨List.replicate N tok, N, false⟩) nC wgs nW m)) →
    ∃ B, NeverReturns B (soloConf tok (loopP (fun _ _ next => .send c tok (next ())) k j r ()) chans nC wgs nW m) := by
  intro j r
  induction r generalizing j with
  | zero =>
    intro chans hN hc h
    have : Function.update chans c ⟨List.replicate N tok, N, false⟩ = chans := by
      rw [show N = j by omega] at *
      rw [← hc, Function.update_eq_self]
    rw [this] at h
    exact h
  | succ r ih =>
    intro chans hN hc h
    have e := soloConf_send tok c tok (loopP (fun _ _ next => .send c tok (next ())) k (j + 1) r ()) chans nC wgs nW m
      (List.replicate j tok) N hc (by simp; omega)
    refine neverReturns_cons_ex (soloConf_solo _ _ _ _ _ _ _) e (ih (j + 1) _ (by omega) ?_ ?_)
    · rw [Function.update_self, List.replicate_succ']
    · rw [Function.update_idem]; exact h

theorem neverReturns_semaphore (tok : V) (N : Nat) (k : Nat → Prog M V)
    (chans : Nat → Chan V) (nC : Nat) (wgs : Nat → Nat) (nW : Nat) (m : M)
    (h : ∃ B, NeverReturns B (soloConf tok (k nC) (Function.update chans nC ⟨List.replicate N tok, N, false⟩) (nC + 1) wgs nW m)) :
    ∃ B, NeverReturns B (soloConf tok (newSemaphoreP tok N k) chans nC wgs nW m) := by
  unfold newSemaphoreP
  rw [if_neg (by omega), Int.toNat_natCast]
  refine neverReturns_cons_ex (soloConf_solo _ _ _ _ _ _ _) (soloConf_make _ _ _ _ _ _ _ _) ?_
  refine neverReturns_fill tok nC N _ (nC + 1) wgs nW m 0 N _ (by omega) (by simp) ?_
  rw [Function.update_idem]; exact h

/-- A program that panics, or does what a blocked one does. -/
theorem neverReturns_of_deadlocks {s t : Conf M V} (h : UptoConf E S s t) {B : Nat} (hB : Deadlocks B t) : NeverReturns (B + 1) s := by
  intro n s' hr
  rcases h.reach hr with ⟨m, t', rfl, ht, e, he, hc⟩ | ⟨t', ht, hu⟩
  · have := (hB m t' ht).1
    refine ⟨by omega, fun h => ?_⟩
    rw [hc] at h; cases h
  · have := (hB n t' ht).1
    refine ⟨by omega, ?_⟩
    rintro _ ⟨r, hr⟩
    have e1 := hu.gs 0
    rw [hr] at e1
    generalize hq : t'.gs 0 = q at e1
    cases e1
    exact (hB n t' ht).2.2 ⟨r, hq⟩

/-- A panic is no return. -/
theorem neverReturns_of_crashes {s : Conf M V} {B : Nat} (h : Crashes E B s) : NeverReturns B s := by
  intro n s' hr
  refine ⟨(h n s' hr).1, fun h0 => ?_⟩
  rcases (h n s' hr).2 with ⟨e, he, _⟩ | ⟨_, _, h2⟩
  · rw [h0] at he; cases he
  · exact h2

end

variable {F : Type} [Field F] [DecidableEq F]

section
variable {Z : Nat → Nat → Prop}

theorem uptoZ_recvElem {E : Abort → Prop} {S : Msg F → Prop} (c : Nat) {k k' : F → Prog Unit (Msg F)} (h : ∀ x, UptoZ Z E S (k x) (k' x)) :
    UptoZ Z E S (recvElem c k) (recvElem c k') := by
  refine .recv _ fun v _ => ?_
  cases v with
  | none => exact h _
  | some v => cases v <;> exact h _

theorem uptoZ_worker (b K w ec rc fc sem : Nat) (sp : SProver F) :
    UptoZ Z AnyErr SaneMsg (uniLoopC b K w ec rc fc sem 0 sp) (workerT b K w ec rc fc sem 0 (some sp)) := by
  refine uptoZ_loop_rel (fun sp o => o = some sp) ?_ _ _ ?_ _ _ rfl
  · rintro sp _ rfl
    exact .send _ _ trivial (.send _ _ trivial (.close _ (.ret _ trivial)))
  · rintro i _ _ sp _ next next' rfl hnext
    refine uptoZ_liftGo _ (fun _ _ => trivial) fun e he => ?_
    have : turnT b i ec rc sem (some sp) next' = .send ec (.vec e) (releaseP sem .tok <| recvElem rc fun r => acquireP sem <|
        next' (some (workerFold b i sp r))) := by
      simp [turnT, evalsT, stepT, he, goOk, vecMsg]
    rw [this]
    exact .send _ _ trivial (.send _ _ trivial (uptoZ_recvElem _ fun r => .recv _ fun _ _ => hnext _ _ rfl))

theorem uptoZ_broadcast (chs : List Nat) (r : F) {k k' : Prog Unit (Msg F)} (h : UptoZ Z AnyErr SaneMsg k k') :
    UptoZ Z AnyErr SaneMsg (broadcastP chs r k) (broadcastP chs r k') := by
  refine .wgNew _ fun wg => uptoZ_loop (fun _ => .wgWait _ h) _ _ ?_ _
  intro i _ _ _ next next' hnext
  cases idx chs i with
  | error e => exact .both e
  | ok ch => exact .go (.send _ _ trivial (.wgDone _ (.ret _ trivial))) (hnext _)

theorem uptoZ_recvVec (c : Nat) {k : List F → Prog Unit (Msg F)} {k' : Option (List F) → Prog Unit (Msg F)}
    (h : ∀ xs, UptoZ Z AnyErr SaneMsg (k xs) (k' (some xs))) : UptoZ Z AnyErr SaneMsg (recvVec c k) (.recv c fun v => k' (vecOf v)) := by
  refine .recv _ fun v hv => ?_
  cases v with
  | none => exact h _
  | some v =>
    cases v with
    | out o => exact absurd (hv _ rfl) (by simp [SaneMsg])
    | _ => exact h _

theorem uptoZ_acc (c n : Nat) {k : List F → Prog Unit (Msg F)} {k' : Option (List F) → Prog Unit (Msg F)}
    (h : ∀ xs, UptoZ Z AnyErr SaneMsg (k xs) (k' (some xs))) : UptoZ Z AnyErr SaneMsg (consumeAccumulateP c n k) (accT c n k') := by
  refine uptoZ_recvVec c (k' := fun o => loopP (fun _ res next => .recv c fun v => next (addT (vecOf v) res)) k' 0 (n - 1) o) fun xs => ?_
  refine uptoZ_loop_rel (fun xs o => o = some xs) (fun xs _ hxs => hxs ▸ h xs) _ _ ?_ _ _ rfl
  rintro _ _ _ res _ next next' rfl hnext
  refine uptoZ_recvVec c (k' := fun o => next' (addT o (some res))) fun tmp => ?_
  refine uptoZ_liftGo _ (fun _ _ => trivial) fun a ha => hnext _ _ ?_
  simp [addT, ha, goOk]

end

section
variable {n K N : Nat} {P : Proto F n K} {ph : PPhase} {B : Nat} {t u : Nat → Nat} {C Q : List Nat} {s : Conf Unit (Msg F)}

/-- Only main receives from the first two channels. -/
theorem PInv.recv_low (h : PInv P N ph B t u C Q s) {i c : Nat} {f : Option (Msg F) → Prog Unit (Msg F)} (hi : s.gs i = .recv c f) (hc : c < 2) :
    ph = .consume ∧ c = roundChan K B := by
  have hBK := h.hB
  rcases h.who i with rfl | ⟨w, hw, rfl⟩ | ⟨w, hw, rfl⟩ | ⟨h1, h2⟩
  · have hm := h.main
    rw [hi] at hm
    cases ph with
    | mk j =>
      obtain ⟨f', hf, _⟩ := P.mMk j h.phase.2.2.1
      rw [mainAt, hf] at hm; cases hm
    | go j => cases hm
    | bnew =>
      obtain ⟨f', hf, _⟩ := P.mNew B h.phase.1 hBK
      rw [mainAt, hf] at hm; cases hm
    | bcast j =>
      obtain ⟨hB, _, hjn, _⟩ := h.phase
      rcases Nat.lt_or_ge j n with hj | hj
      · rw [mainAt, P.mGo B hB hBK j hj] at hm; cases hm
      · obtain rfl : j = n := by omega
        rw [mainAt, P.mWait B hB hBK] at hm; cases hm
    | consume =>
      obtain ⟨f', hf, _⟩ := P.mConsume B hBK C (List.nodup_append.1 h.nodup).1
        (fun w hw => ((h.mem w).1 (by simp [hw])).1) h.phase.1
      rw [mainAt, hf] at hm
      cases hm
      exact ⟨rfl, rfl⟩
    | closeE => cases hm
    | closeF => cases hm
    | done => cases hm
  · exfalso
    have hj := h.work w hw
    by_cases hs : started n w ph
    · rw [if_pos hs, hi] at hj
      have hh := h.high w hw
      obtain ⟨k, hk⟩ : ∃ k, k = t w / 4 := ⟨_, rfl⟩
      have h4 : t w % 4 < 4 := Nat.mod_lt _ (by omega)
      have hm : t w = 4 * k + t w % 4 := by omega
      generalize t w % 4 = r at *
      rw [hm] at hj hh
      interval_cases r
      · by_cases hkK : k ≤ K
        · rw [Nat.add_zero, P.wAcq w hw k hkK] at hj
          cases hj
          omega
        · obtain rfl : k = K + 1 := by omega
          rw [show 4 * (K + 1) + 0 = 4 * K + 4 by ring, P.wRet w hw] at hj
          cases hj
      · rw [P.wSend w hw k (by omega)] at hj; cases hj
      · rw [P.wRel w hw k (by omega)] at hj; cases hj
      · by_cases hkK : k < K
        · obtain ⟨f', hf, _⟩ := P.wRecv w hw k hkK
          rw [hf] at hj
          cases hj
          omega
        · obtain rfl : k = K := by omega
          rw [P.wClose w hw] at hj; cases hj
    · rw [if_neg hs, hi] at hj; cases hj
  · exfalso
    have hj := h.bc w hw
    rw [hi] at hj
    unfold bAt at hj
    split at hj <;> cases hj
  · have := h.other i h1 h2
    rw [hi] at this; cases this

/-- The channels of main. -/
def crossed (c c' : Nat) : Prop := (c = 0 ∧ c' = 1) ∨ (c = 1 ∧ c' = 0)

theorem PInv.crossed (h : PInv P N ph B t u C Q s) {i c c' : Nat} {f : Option (Msg F) → Prog Unit (Msg F)} (hi : s.gs i = .recv c' f)
    (hc : crossed c c') : (s.chans c).buf = [] ∧ (s.chans c).closed = false ∧ (s.chans c).cap ≠ 0 := by
  have hn := P.hn
  rcases hc with ⟨rfl, rfl⟩ | ⟨rfl, rfl⟩
  · obtain ⟨rfl, hr⟩ := h.recv_low hi (by omega)
    have : ¬ B < K := fun hl => by simp [roundChan, hl] at hr
    rw [h.ev, if_neg this]
    simp; omega
  · obtain ⟨rfl, hr⟩ := h.recv_low hi (by omega)
    have : B < K := by
      by_contra hl
      simp [roundChan, hl] at hr
    rw [h.fi, if_pos this]
    simp; omega

end

/-- With different numbers of rounds `Prove` never returns. -/
theorem proveP_rounds {H : List F → F} {p : MProver F} {eq0 vL0 : List F} {g b K : Nat} (h1 : idx p.eq 0 = .ok eq0) (h2 : idx p.vL 0 = .ok vL0)
    (h3 : goDiv (p.eq.length * vL0.length) (p.eq.length * eq0.length) = .ok g)
    (hK : K ≠ 2 * log2Ceil g + log2Ceil ((p.eq.length * eq0.length : Nat) : Int) - log2Ceil p.eq.length)
    (hd : ∀ w < p.eq.length, ∀ d, (p.subProver w >>= SProver.dims) = .ok d → d.1 = b ∧ 2 * d.1 + d.2 = K) (N : Nat) :
    ∃ bound, NeverReturns bound (startOf (p.proveP H N) () .tok) := by
  have hn : 0 < p.eq.length := idx_ok_lt h1
  have h0 : ∀ w < p.eq.length, ∀ sp, startT p w = some sp → SameKind sp (newSProver [] [] [] p.gates p.statics) :=
    fun w _ sp hsp => subProver_kind (startT_some hsp).1
  rw [start_eq]
  unfold MProver.proveP
  simp only [h1, h2, liftGo_ok]
  rw [h3, liftGo_ok]
  refine neverReturns_cons_ex (soloConf_solo _ _ _ _ _ _ _) (soloConf_make _ _ _ _ _ _ _ _)
    (neverReturns_cons_ex (soloConf_solo _ _ _ _ _ _ _) (soloConf_make _ _ _ _ _ _ _ _)
    (neverReturns_semaphore _ _ _ _ _ _ _ _ ?_))
  let P := protoT (H := H) (b := b) (K := K) (bG := log2Ceil g) (logN := log2Ceil p.eq.length) (z := markMsg) h0 hn
  have hch : ∀ c, ∀ x ∈ (Function.update (Function.update (Function.update (fun _ => (⟨[], 0, false⟩ : Chan (Msg F))) 0
      ⟨[], p.eq.length, false⟩) 1 ⟨[], p.eq.length, false⟩) 2 ⟨List.replicate N .tok, N, false⟩ c).buf, SaneMsg x := by
    intro c x hx
    by_cases hc2 : c = 2
    · subst hc2
      rw [Function.update_self] at hx
      rw [List.eq_of_mem_replicate hx]
      trivial
    · rw [Function.update_of_ne hc2] at hx
      by_cases hc1 : c = 1
      · subst hc1; rw [Function.update_self] at hx; cases hx
      · rw [Function.update_of_ne hc1] at hx
        by_cases hc0 : c = 0
        · subst hc0; rw [Function.update_self] at hx; cases hx
        · rw [Function.update_of_ne hc0] at hx; cases hx
  have hreach : ∀ n t', ReachIn (soloConf .tok (P.mkc 0) (Function.update (Function.update (Function.update
      (fun _ => (⟨[], 0, false⟩ : Chan (Msg F))) 0 ⟨[], p.eq.length, false⟩) 1 ⟨[], p.eq.length, false⟩) 2 ⟨List.replicate N .tok, N, false⟩)
      3 (fun _ => 0) 0 ()) n t' → ∃ ph B t u C Q, n + protoLeft p.eq.length K ph B t u C ≤
        protoLeft p.eq.length K (.mk 0) 0 (fun _ => 0) (fun _ => 0) [] ∧ PInv P N ph B t u C Q t' := by
    intro n t' hr
    induction hr with
    | zero => exact ⟨_, _, _, _, _, _, by omega, proto_start P N _ (by simp) (by simp) (by simp)⟩
    | step _ hs ih =>
      obtain ⟨ph, B, t, u, C, Q, hl, hI⟩ := ih
      obtain ⟨ph', B', t', u', C', Q', hl', hI'⟩ := hI.step hs
      exact ⟨ph', B', t', u', C', Q', by omega, hI'⟩
  refine ⟨_, neverReturns_of (Z := crossed) (E := AnyErr) (S := SaneMsg) (B := protoLeft p.eq.length K (.mk 0) 0 (fun _ => 0) (fun _ => 0) [])
    (I := fun s => ∃ ph B t u C Q, PInv P N ph B t u C Q s) (uptoZ_solo (q := P.mkc 0) ?_ trivial _ hch _ _ _ _) ?_ ?_ ?_⟩
  · change UptoZ crossed AnyErr SaneMsg _ (launchT H b p.eq.length K (log2Ceil g) (log2Ceil p.eq.length) (startT p) markMsg 0 1 2 0 (rChansOf 0))
    refine uptoZ_loop ?_ _ _ ?_ _
    · intro chs
      refine uptoZ_loop_stall (fun s o => o = some s) ?_ ?_ ?_ _ _ _ (by omega) _ _ rfl
      · intro i s o next
        exact .stall _ _ (.inr ⟨rfl, rfl⟩) _ _
      · intro i s o next
        exact .stall _ _ (.inl ⟨rfl, rfl⟩) _ _
      · rintro _ s _ next next' rfl hnext
        refine uptoZ_acc 0 _ fun evals => uptoZ_liftGo _ (fun _ _ => trivial) fun c hc => ?_
        simp only [Option.bind_some, hc, goOk, chalT, histT, Option.map_some]
        exact uptoZ_broadcast _ _ (hnext _ _ rfl)
    · intro i _ hi chs next next' hnext
      refine .make _ fun rc => .go ?_ (hnext _)
      cases hw : p.subProver i with
      | error e =>
        unfold MProver.runForChunkP
        rw [hw]
        exact .recv _ fun _ _ => .crash e trivial _
      | ok sp =>
        cases hdm : sp.dims with
        | error e =>
          unfold MProver.runForChunkP
          rw [hw, liftGo_ok, hdm]
          exact .recv _ fun _ _ => .crash e trivial _
        | ok d =>
          obtain ⟨hb, hdK⟩ := hd i (by omega) d (by rw [hw, ok_bind, hdm])
          obtain ⟨b', bN⟩ := d
          dsimp only at hb hdK
          subst hb
          rw [runForChunkP_eqC hw hdm hdK]
          have : startT p i = some sp := by simp [startT, hw, hdm, goOk, ok_bind]
          rw [this]
          exact .recv _ fun _ _ => uptoZ_worker _ _ _ _ _ _ _ sp
  · intro n t' hr
    obtain ⟨ph, B, t, u, C, Q, hl, hI⟩ := hreach n t' hr
    exact ⟨by omega, ph, B, t, u, C, Q, hI⟩
  · rintro s ⟨ph, B, t, u, C, Q, hI⟩ i c c' f hi hz
    exact hI.crossed hi hz
  · rintro s s' hu ⟨ph, B, t, u, C, Q, hI⟩ _ ⟨r, hr⟩
    have e1 := hu.gs 0
    rw [hr] at e1
    generalize hq : s'.gs 0 = q at e1
    cases e1 with
    | ret r hs =>
      have hdone := hI.main_form.2 r hq
      subst hdone
      have hm := hI.main
      rw [hq] at hm
      have ho : r = P.out := by
        simpa [mainAt] using hm
      rw [ho] at hs
      change SaneMsg (outT _ _ _ _ _ _) at hs
      unfold outT at hs
      split at hs
      · split at hs
        · exact hs
        · split at hs <;> exact hs
      · exact hs

/-- With zero cores and the same number of rounds `Prove` never returns. -/
theorem proveP_zero {H : List F → F} {p : MProver F} {eq0 vL0 : List F} {g b K : Nat} (h1 : idx p.eq 0 = .ok eq0) (h2 : idx p.vL 0 = .ok vL0)
    (h3 : goDiv (p.eq.length * vL0.length) (p.eq.length * eq0.length) = .ok g)
    (hK : K = 2 * log2Ceil g + log2Ceil ((p.eq.length * eq0.length : Nat) : Int) - log2Ceil p.eq.length)
    (hd : ∀ w < p.eq.length, ∀ d, (p.subProver w >>= SProver.dims) = .ok d → d.1 = b ∧ 2 * d.1 + d.2 = K) :
    ∃ bound, NeverReturns bound (startOf (p.proveP H 0) () .tok) := by
  have hn : 0 < p.eq.length := idx_ok_lt h1
  have h0 : ∀ w < p.eq.length, ∀ sp, startT p w = some sp → SameKind sp (newSProver [] [] [] p.gates p.statics) :=
    fun w _ sp hsp => subProver_kind (startT_some hsp).1
  obtain ⟨B, hB⟩ := proto_deadlock (protoT (H := H) (b := b) (K := K) (bG := log2Ceil g) (logN := log2Ceil p.eq.length) (z := markMsg) h0 hn)
    (Function.update (Function.update (Function.update (fun _ => ⟨[], 0, false⟩) 0 ⟨[], p.eq.length, false⟩) 1
    ⟨[], p.eq.length, false⟩) 2 ⟨[], 0, false⟩) (by simp) (by simp) (by simp)
  have hT : Deadlocks (B + 1 + 1 + 1) (startOf (proveT H b p.eq.length K (log2Ceil g) (log2Ceil p.eq.length) (startT p) markMsg 0) () .tok) := by
    rw [start_eq]
    unfold proveT newSemaphoreP
    simp only [if_neg (show ¬ ((0 : Int) < 0) by omega)]
    exact deadlocks_cons (soloConf_solo _ _ _ _ _ _ _) (soloConf_make _ _ _ _ _ _ _ _)
      (deadlocks_cons (soloConf_solo _ _ _ _ _ _ _) (soloConf_make _ _ _ _ _ _ _ _)
        (deadlocks_cons (soloConf_solo _ _ _ _ _ _ _) (soloConf_make _ _ _ _ _ _ _ _) hB))
  exact ⟨_, neverReturns_of_deadlocks (upto_start (proveP_upto h1 h2 h3 hK hd markMsg 0) () .tok) hT⟩

/-- When the sequential `Prove` has the result `deadlock`, the concurrent one never returns. -/
theorem proveP_never {H : List F → F} {p : MProver F} {nCore : Int} (h : p.prove H nCore = .error .deadlock) (heven : EvenChunks p) :
    ∃ bound, NeverReturns bound (startOf (p.proveP H nCore) () .tok) := by
  cases h1 : idx p.eq 0 with
  | error e1 =>
    refine ⟨1, neverReturns_of_crashes (E := AnyErr) ?_⟩
    rw [start_eq]
    unfold MProver.proveP
    rw [h1]
    exact crashes_now trivial _ _ _ _ _ _
  | ok eq0 =>
  cases h2 : idx p.vL 0 with
  | error e1 =>
    refine ⟨1, neverReturns_of_crashes (E := AnyErr) ?_⟩
    rw [start_eq]
    unfold MProver.proveP
    rw [h1, liftGo_ok, h2]
    exact crashes_now trivial _ _ _ _ _ _
  | ok vL0 =>
  cases h3 : goDiv (p.eq.length * vL0.length) (p.eq.length * eq0.length) with
  | error e1 =>
    refine ⟨1, neverReturns_of_crashes (E := AnyErr) ?_⟩
    rw [start_eq]
    unfold MProver.proveP
    rw [h1, liftGo_ok, h2, liftGo_ok, h3]
    exact crashes_now trivial _ _ _ _ _ _
  | ok g =>
  have hn : 0 < p.eq.length := idx_ok_lt h1
  by_cases hc : nCore < 0
  · unfold MProver.prove at h
    simp only [h1, h2, ok_bind, h3, semaphoreSection, if_pos hc] at h
    cases h
  obtain ⟨N, rfl⟩ := Int.eq_ofNat_of_zero_le (show 0 ≤ nCore by omega)
  cases hd0 : (p.subProver 0 >>= SProver.dims) with
  | error e' =>
    have hall : ∀ w < p.eq.length, (p.subProver w >>= SProver.dims) = .error e' := fun w hw => (heven w hw 0 hn).trans hd0
    by_cases hN : N = 0
    · subst hN
      exact proveP_zero (b := 0) h1 h2 h3 rfl fun w hw d hd => by rw [hall w hw] at hd; cases hd
    · obtain ⟨B, hB⟩ := proveP_crashes_late h heven h1 h2 h3 (by omega) (.inr fun d hd => by rw [hd0] at hd; cases hd)
      exact ⟨B, neverReturns_of_crashes hB⟩
  | ok d =>
    have hall : ∀ w < p.eq.length, ∀ d', (p.subProver w >>= SProver.dims) = .ok d' → d'.1 = d.1 ∧ 2 * d'.1 + d'.2 = 2 * d.1 + d.2 := by
      intro w hw d' hd'
      rw [heven w hw 0 hn, hd0] at hd'
      obtain rfl := Except.ok.inj hd'
      exact ⟨rfl, rfl⟩
    by_cases hK : 2 * d.1 + d.2 = 2 * log2Ceil g + log2Ceil ((p.eq.length * eq0.length : Nat) : Int) - log2Ceil p.eq.length
    · by_cases hN : N = 0
      · subst hN
        exact proveP_zero h1 h2 h3 hK hall
      · obtain ⟨B, hB⟩ := proveP_crashes_late h heven h1 h2 h3 (by omega) (.inr fun d' hd => by
          rw [hd0] at hd; obtain rfl := Except.ok.inj hd; exact hK)
        exact ⟨B, neverReturns_of_crashes hB⟩
    · exact proveP_rounds h1 h2 h3 hK hall N

/-! ### Worker pools with zero cores -/

theorem evaluateP_never {l : Layer F} {inputs : List (List F)} (hne : inputs ≠ []) (res0 : List (List F)) :
    ∃ bound, NeverReturns bound (startOf (l.evaluateP inputs 0) res0 .tok) := by
  have hT : ∃ B, Deadlocks B (startOf (newSemaphoreP (V := Msg F) .tok 0 fun sem =>
      .wgNew (tab inputs.length fun i => goOr [] (evaluateChunk l (inputs.getD i []))).length fun wg =>
        poolLoop .tok true sem wg (tab inputs.length fun i => goOr [] (evaluateChunk l (inputs.getD i []))).length
          (fun i => [fun res => res.set i ((tab inputs.length fun i => goOr [] (evaluateChunk l (inputs.getD i []))).getD i [])]) 0) res0 .tok) := by
    rw [start_eq]
    unfold newSemaphoreP
    rw [if_neg (by omega)]
    refine ⟨_, deadlocks_cons (soloConf_solo _ _ _ _ _ _ _) (soloConf_make _ _ _ _ _ _ _ _)
      (deadlocks_cons (soloConf_solo _ _ _ _ _ _ _) (soloConf_wgNew _ _ _ _ _ _ _ _) (pool_deadlock ?_ ?_ _ _ _ _ ?_ ?_))⟩
    · rw [tab_length]; exact List.length_pos_iff.2 hne
    · exact fun w w' hw => set_comm_jobs (fun i => [(tab inputs.length fun i => goOr [] (evaluateChunk l (inputs.getD i []))).getD i []]) w w' hw
    · simp
    · simp
  obtain ⟨B, hB⟩ := hT
  exact ⟨_, neverReturns_of_deadlocks (upto_start (evaluateP_upto l inputs 0 fun _ => []) res0 .tok) hB⟩

theorem claimP_deadlock {n : Nat} (hpos : 0 < n) (x : Nat → F) : ∃ bound, Deadlocks bound (startOf (claimP n x 0) () .tok) := by
  rw [start_eq]
  unfold claimP newSemaphoreP
  simp only [if_neg (show ¬ ((0 : Int) < 0) by omega)]
  refine ⟨_, deadlocks_cons (soloConf_solo _ _ _ _ _ _ _) (soloConf_make _ _ _ _ _ _ _ _)
    (deadlocks_cons (soloConf_solo _ _ _ _ _ _ _) (soloConf_make _ _ _ _ _ _ _ _) (B := claimLeft n 0 (fun _ => 0) []) ?_)⟩
  rw [show Int.toNat 0 = 0 from rfl]
  change Deadlocks _ (soloConf _ (loopP _ _ 0 n ()) _ _ _ _ _)
  change Deadlocks _ (soloConf _ (claimLaunch n x 0) _ _ _ _ _)
  refine deadlocks_of_inv
    (fun μ s => ∃ j t C Q, claimLeft n j t C = μ ∧ ClaimInv n 0 x j t C Q s ∧ ∀ w, t w = 0) ?_ ?_ ?_
  · rintro μ s s' ⟨j, t, C, Q, rfl, h, ht⟩ hs
    obtain ⟨ha, ⟨i, hi⟩ | hr⟩ := hs
    · cases i with
      | zero =>
        obtain ⟨j', C', Q', h1, h2⟩ := h.main_exec hi
        exact ⟨_, h1, j', t, C', Q', rfl, h2, ht⟩
      | succ w =>
        exfalso
        have hj := h.job w
        by_cases hw : w < j
        · rw [if_pos hw, ht w] at hj
          simp only [claimAt] at hj
          have hb : (s.chans 1).buf = [] := by
            have := h.tokens
            exact List.length_eq_zero_iff.1 (by omega)
          simp [exec, hj, hb, h.semOpen] at hi
        · rw [if_neg hw] at hj
          simp [exec, hj] at hi
    · obtain ⟨i, i', c, v, k, k', _, hi, _⟩ := hr
      exfalso
      cases i with
      | zero =>
        have := (h.send_ok hi).2
        have hm := h.main
        rw [hi] at hm
        by_cases hj : j < n
        · rw [if_pos hj, claimLaunch_lt hj] at hm; cases hm
        · rw [if_neg hj] at hm
          rcases Nat.lt_or_ge C.length n with hC | hC
          · rw [claimCollect_lt hC] at hm; cases hm
          · rw [claimCollect_end hC] at hm; cases hm
      | succ w =>
        have hj := h.job w
        rw [hi, ht w] at hj
        split_ifs at hj <;> cases hj
  · rintro μ s ⟨j, t, C, Q, _, h, ht⟩
    refine ⟨h.alive, ?_⟩
    rintro ⟨r, hr⟩
    have hm := h.main
    rw [hr] at hm
    by_cases hj : j < n
    · rw [if_pos hj, claimLaunch_lt hj] at hm; cases hm
    · rw [if_neg hj] at hm
      have hC : C = [] := by
        cases C with
        | nil => rfl
        | cons c C => have := (h.mem c).1 (by simp); have := ht c; omega
      subst hC
      rw [claimCollect_lt (by simpa using hpos)] at hm
      cases hm
  · exact ⟨0, _, [], [], rfl, claim_start _ 0 _ _ _ _ _ (by simp) (by simp), fun _ => rfl⟩

theorem getClaimP_never {p : MProver F} (hne : 0 < p.eq.length) : ∃ bound, NeverReturns bound (startOf (p.getClaimP 0) () .tok) := by
  obtain ⟨B, hB⟩ := claimP_deadlock hne fun i => goOr 0 (p.subProver i >>= SProver.getClaim)
  exact ⟨_, neverReturns_of_deadlocks (upto_start (getClaimP_upto p 0 fun _ => 0) () .tok) hB⟩

end GkrMimc
