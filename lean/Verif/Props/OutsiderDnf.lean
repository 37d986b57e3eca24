import Verif.Props.Outsider
import Verif.Proof.DnfMap

/-!
# C77 for the schemes with policies in disjunctive normal form
-/

set_option linter.unusedSectionVars false

namespace Rabe

variable {F G1 G2 Gt : Type} [Field F] [DecidableEq F] [AddCommGroup G1] [Module F G1]
  [AddCommGroup G2] [Module F G2] [AddCommGroup Gt] [Module F Gt]

/-- The stream with the first point of `G1` multiplied. -/
def Tape.scaleG1 (t : Tape F G1 G2 Gt) (x : F) : Tape F G1 G2 Gt :=
  { t with g1 := fun n => if n = 0 then x • t.g1 0 else t.g1 n }

/-- A request for a public attribute key: the attribute, the authority and the random numbers of its key. Requests to the
same authority have the same name and random numbers. -/
structure KeyRequest (F G1 G2 Gt : Type) where
  attr : Str
  auth : Str
  tape : Tape F G1 G2 Gt

/-- The product with a fixed element. -/
def smulHom {M : Type} [AddCommGroup M] [Module F M] (x : M) : F →+ M where
  toFun a := a • x
  map_zero' := zero_smul F x
  map_add' a b := add_smul a b x

/-- The terms of a policy, computed with exponents instead of group elements. -/
def exponents (text : Str) (lang : PolicyLanguage) (ks : List (PubAttr F F F)) : List (DnfTerm F F F) :=
  match DnfPolicy.fromString text ks lang with
  | .ok T => T
  | _ => []

namespace Bdabe

/-- The group elements of a public key, `/repo/src/schemes/bdabe/mod.rs:49-55`. -/
def PublicKey.seen (pk : PublicKey G1 G2 Gt) : View G1 G2 Gt := ⟨[pk.g1, pk.p1], [pk.g2, pk.p2], [pk.eGgY]⟩

/-- The group elements of a public attribute key, `/repo/src/schemes/bdabe/mod.rs:108-113`. -/
def PublicAttributeKey.seen (k : PublicAttributeKey G1 G2 Gt) : View G1 G2 Gt := ⟨[k.a1], [k.a2], [k.a3]⟩

/-- The group elements of one tuple of a ciphertext, `/repo/src/schemes/bdabe/mod.rs:130-137`. -/
def CiphertextTuple.seen (j : CiphertextTuple G1 G2 Gt) : View G1 G2 Gt := ⟨[j.e2, j.e4], [j.e3, j.e5], [j.e1]⟩

/-- The group elements of a ciphertext, `/repo/src/schemes/bdabe/mod.rs:143-147`. -/
def Ciphertext.seen (ct : Ciphertext G1 G2 Gt) : View G1 G2 Gt := View.all (ct.j.map CiphertextTuple.seen)

/-- The secret exponent of a requested attribute, `/repo/src/schemes/bdabe/mod.rs:242-248`. -/
def exponent (env : Env F G1 G2 Gt) (r : KeyRequest F G1 G2 Gt) : F := env.hash r.attr * env.hash r.auth * r.tape.fr 1

/-- The requested keys as exponents. -/
def formalKeys (env : Env F G1 G2 Gt) (reqs : List (KeyRequest F G1 G2 Gt)) : List (PubAttr F F F) :=
  reqs.map fun r => ⟨r.attr, exponent env r, exponent env r, exponent env r, 0⟩

/-- The computation `k` finds the session element of the ciphertext made by `job`. The varied values are random number `n`
of the encryption, a factor of the session element and the master secret. -/
def Opened (env : Env F G1 G2 Gt) (k : Formula F) (t : Tape F G1 G2 Gt) (reqs : List (KeyRequest F G1 G2 Gt))
    (job : CpJob F G1 G2 Gt) (others : List (CpJob F G1 G2 Gt)) (extra : View G1 G2 Gt) (n : ℕ) (x : F × F × F) : Prop :=
  ∃ pk msk t' aks ct u cts, setup env (t.setFr 0 x.2.2) = .ok ((pk, msk), t') ∧
    List.Forall₂ (fun r ak => ∃ a u, authgen pk msk r.auth r.tape = .ok (a, u) ∧
      requestAttributePk env pk a r.attr = .ok ak) reqs aks ∧
    encrypt env pk aks job.text job.lang job.plain ((job.tape.setFr n x.1).scaleG1 x.2.1) = .ok (ct, u) ∧
    List.Forall₂ (fun o c => ∃ u, encrypt env pk aks o.text o.lang o.plain o.tape = .ok (c, u)) others cts ∧
    k.eval env (View.all (extra :: pk.seen :: View.all (aks.map PublicAttributeKey.seen) :: ct.seen ::
      cts.map Ciphertext.seen)) = x.2.1 • env.pair (job.tape.g1 0) (job.tape.g2 0)

/-- The tuples of a ciphertext. -/
def tuples (pk : PublicKey G1 G2 Gt) (msg : Gt) : (ℕ → F) → List (DnfTerm G1 G2 Gt) → List (CiphertextTuple G1 G2 Gt)
  | _, [] => []
  | r, T :: Ts => { attr := T.attrs, e1 := r 0 • T.gt1 + msg, e2 := r 0 • pk.p1, e3 := r 0 • pk.p2,
                    e4 := r 0 • T.g1, e5 := r 0 • T.g2 } :: tuples pk msg (dropS 1 r) Ts

theorem mapL_encTerm (pk : PublicKey G1 G2 Gt) (msg : Gt) : ∀ (l : List (DnfTerm G1 G2 Gt)) (t t' : Tape F G1 G2 Gt)
    (c : List (CiphertextTuple G1 G2 Gt)), RM.mapL (encTerm pk msg) l t = .ok (c, t') → c = tuples pk msg t.fr l
  | [], t, t', c, h => by
    have h' : (pure [] : RM F G1 G2 Gt _) t = .ok (c, t') := h
    exact (RM.pure_ok.1 h').1
  | T :: Ts, t, t', c, h => by
    have h' : (encTerm pk msg T >>= fun y => RM.mapL (encTerm pk msg) Ts >>= fun ys => pure (y :: ys)) t = .ok (c, t') := h
    simp only [RM.bind_ok, encTerm, RM.genFr, RM.pure_ok, Res.ok.injEq, Prod.mk.injEq] at h'
    obtain ⟨_, _, ⟨_, _, ⟨rfl, rfl⟩, rfl, rfl⟩, ys, _, hys, rfl, rfl⟩ := h'
    rw [tuples, mapL_encTerm pk msg Ts _ _ _ hys]

/-- The term of a policy that belongs to a term of exponents. -/
abbrev realTerm (pk : PublicKey G1 G2 Gt) : DnfTerm F F F → DnfTerm G1 G2 Gt :=
  DnfTerm.map (smulHom pk.g1) (smulHom pk.g2) (smulHom pk.eGgY) 0

theorem encrypt_seen {env : Env F G1 G2 Gt} {pk : PublicKey G1 G2 Gt} {aks : List (PublicAttributeKey G1 G2 Gt)}
    {ks : List (PubAttr F F F)}
    (haks : aks.map PublicAttributeKey.view = ks.map (PubAttr.map (smulHom pk.g1) (smulHom pk.g2) (smulHom pk.eGgY) 0))
    {text : Str} {lang : PolicyLanguage} {m : Bytes} {t t' : Tape F G1 G2 Gt} {ct : Ciphertext G1 G2 Gt}
    (h : encrypt env pk aks text lang m t = .ok (ct, t')) :
    ct.j = tuples pk (env.pair (t.g1 0) (t.g2 0)) t.fr ((exponents text lang ks).map (realTerm pk)) := by
  simp only [encrypt, RM.bind_ok, RM.lift_ok_iff] at h
  obtain ⟨v, _, ⟨hv, rfl⟩, h⟩ := h
  split at h
  · simp only [RM.bind_ok, RM.genG1, RM.genG2, RM.lift_ok_iff, RM.pure_ok, Res.ok.injEq,
      Prod.mk.injEq, encryptSymmetric_ok_iff, haks] at h
    obtain ⟨l, _, ⟨hl, rfl⟩, _, _, ⟨rfl, rfl⟩, _, _, ⟨rfl, rfl⟩, js, _, hjs, d, _, ⟨rfl, c, hc, rfl⟩, rfl, rfl⟩ := h
    cases hT : DnfPolicy.fromString text (ks.map (PubAttr.map (smulHom pk.g1) (smulHom pk.g2) (smulHom pk.eGgY) 0)) lang with
    | err => rw [hT] at hl; simp [Res.unwrap] at hl
    | panic => rw [hT] at hl; simp [Res.unwrap] at hl
    | ok l' =>
      obtain rfl : l' = l := by rw [hT] at hl; simpa [Res.unwrap] using hl
      obtain ⟨T, h1, h2⟩ := fromString_map _ _ _ _ hT
      rw [mapL_encTerm _ _ _ _ _ _ hjs, h2]
      simp [exponents, h1]
  · simp at h

theorem tuples_move {pk pk' : PublicKey G1 G2 Gt} {X msg D : Gt}
    (hpk : pk' = { pk with eGgY := pk.eGgY + X }) (c : F) (Y : Gt) (hD : D = c • Y) :
    ∀ (r : ℕ → F) (T : List (DnfTerm F F F)),
      (View.all ((tuples pk msg r (T.map (realTerm pk))).map CiphertextTuple.seen)).one =
        (View.all ((tuples pk' (msg + D) r (T.map (realTerm pk'))).map CiphertextTuple.seen)).one ∧
      (View.all ((tuples pk msg r (T.map (realTerm pk))).map CiphertextTuple.seen)).two =
        (View.all ((tuples pk' (msg + D) r (T.map (realTerm pk'))).map CiphertextTuple.seen)).two ∧
      Moves X Y ((mulIdx r (T.map (·.gt1))).map fun x => (x, c))
        (View.all ((tuples pk msg r (T.map (realTerm pk))).map CiphertextTuple.seen)).tgt
        (View.all ((tuples pk' (msg + D) r (T.map (realTerm pk'))).map CiphertextTuple.seen)).tgt
  | r, [] => ⟨rfl, rfl, trivial⟩
  | r, T :: Ts => by
    obtain ⟨h1, h2, h3⟩ := tuples_move hpk c Y hD (dropS 1 r) Ts
    subst hpk hD
    refine ⟨?_, ?_, ?_, h3⟩
    · simp only [List.map_cons, tuples, View.all, View.join, h1]; rfl
    · simp only [List.map_cons, tuples, View.all, View.join, h2]; rfl
    · simp only [realTerm, DnfTerm.map, smulHom, AddMonoidHom.coe_mk, ZeroHom.coe_mk]
      module

theorem setup_shift {env : Env F G1 G2 Gt} {t t' t'' : Tape F G1 G2 Gt} {a a' : F} {pk pk' : PublicKey G1 G2 Gt}
    {msk msk' : MasterKey F} (h : setup env (t.setFr 0 a) = .ok ((pk, msk), t'))
    (h' : setup env (t.setFr 0 a') = .ok ((pk', msk'), t'')) :
    pk' = { pk with eGgY := pk.eGgY + (a' - a) • env.pair (t.g1 0) (t.g2 0) } := by
  simp only [setup, RM.bind_ok, RM.genG1, RM.genG2, RM.genFr, RM.pure_ok, Res.ok.injEq, Prod.mk.injEq, Tape.setFr] at h h'
  obtain ⟨_, _, ⟨rfl, rfl⟩, _, _, ⟨rfl, rfl⟩, _, _, ⟨rfl, rfl⟩, _, _, ⟨rfl, rfl⟩, _, _, ⟨rfl, rfl⟩, ⟨rfl, rfl⟩, rfl⟩ := h
  obtain ⟨_, _, ⟨rfl, rfl⟩, _, _, ⟨rfl, rfl⟩, _, _, ⟨rfl, rfl⟩, _, _, ⟨rfl, rfl⟩, _, _, ⟨rfl, rfl⟩, ⟨rfl, rfl⟩, rfl⟩ := h'
  simp only [PublicKey.mk.injEq, true_and]
  norm_num
  module

/-- The public attribute key of a request, `/repo/src/schemes/bdabe/mod.rs:242-251`. -/
def attrKey (env : Env F G1 G2 Gt) (pk : PublicKey G1 G2 Gt) (r : KeyRequest F G1 G2 Gt) : PublicAttributeKey G1 G2 Gt where
  attr := r.attr
  a1 := exponent env r • pk.g1
  a2 := exponent env r • pk.g2
  a3 := exponent env r • pk.eGgY

/-- The public attribute keys are the exponents times the public key. -/
theorem requested {env : Env F G1 G2 Gt} {pk : PublicKey G1 G2 Gt} {msk : MasterKey F} :
    ∀ {reqs : List (KeyRequest F G1 G2 Gt)} {aks : List (PublicAttributeKey G1 G2 Gt)},
    List.Forall₂ (fun r ak => ∃ a u, authgen pk msk r.auth r.tape = .ok (a, u) ∧
      requestAttributePk env pk a r.attr = .ok ak) reqs aks →
    aks = reqs.map (attrKey env pk)
  | _, _, .nil => rfl
  | _, _, .cons ⟨a, u, h1, h2⟩ l => by
    rw [requested l, List.map_cons]
    congr 1
    simp only [authgen, RM.bind_ok, RM.genFr, RM.pure_ok, Res.ok.injEq, Prod.mk.injEq] at h1
    obtain ⟨_, _, ⟨rfl, rfl⟩, _, _, ⟨rfl, rfl⟩, rfl, rfl⟩ := h1
    simp only [requestAttributePk] at h2
    split at h2
    · simpa [attrKey, exponent, dropS] using h2.symm
    · simp at h2

theorem aks_move (env : Env F G1 G2 Gt) {pk pk' : PublicKey G1 G2 Gt} {X : Gt}
    (hpk : pk' = { pk with eGgY := pk.eGgY + X }) (reqs : List (KeyRequest F G1 G2 Gt)) (Y : Gt) :
    (View.all ((reqs.map (attrKey env pk)).map PublicAttributeKey.seen)).one =
      (View.all ((reqs.map (attrKey env pk')).map PublicAttributeKey.seen)).one ∧
    (View.all ((reqs.map (attrKey env pk)).map PublicAttributeKey.seen)).two =
      (View.all ((reqs.map (attrKey env pk')).map PublicAttributeKey.seen)).two ∧
    Moves X Y ((reqs.map (exponent env)).map fun x => (x, 0))
      (View.all ((reqs.map (attrKey env pk)).map PublicAttributeKey.seen)).tgt
      (View.all ((reqs.map (attrKey env pk')).map PublicAttributeKey.seen)).tgt := by
  induction reqs with
  | nil => exact ⟨rfl, rfl, trivial⟩
  | cons r reqs ih =>
    obtain ⟨h1, h2, h3⟩ := ih
    refine ⟨?_, ?_, ?_, h3⟩
    · simp only [List.map_cons, View.all, View.join, h1]; rw [hpk]; rfl
    · simp only [List.map_cons, View.all, View.join, h2]; rw [hpk]; rfl
    · simp only [attrKey, hpk]; module

/-- The coefficients of the master secret in the ciphertexts made by `others`. -/
def slopes (ks : List (PubAttr F F F)) (others : List (CpJob F G1 G2 Gt)) : List F :=
  others.flatMap fun o => mulIdx o.tape.fr ((exponents o.text o.lang ks).map (·.gt1))

theorem cts_move {env : Env F G1 G2 Gt} {pk pk' : PublicKey G1 G2 Gt} {aks aks' : List (PublicAttributeKey G1 G2 Gt)}
    {ks : List (PubAttr F F F)} {X : Gt}
    (haks : aks.map PublicAttributeKey.view = ks.map (PubAttr.map (smulHom pk.g1) (smulHom pk.g2) (smulHom pk.eGgY) 0))
    (haks' : aks'.map PublicAttributeKey.view =
      ks.map (PubAttr.map (smulHom pk'.g1) (smulHom pk'.g2) (smulHom pk'.eGgY) 0))
    (hpk : pk' = { pk with eGgY := pk.eGgY + X }) (Y : Gt) :
    ∀ {os : List (CpJob F G1 G2 Gt)} {cs cs' : List (Ciphertext G1 G2 Gt)},
      List.Forall₂ (fun o c => ∃ u, encrypt env pk aks o.text o.lang o.plain o.tape = .ok (c, u)) os cs →
      List.Forall₂ (fun o c => ∃ u, encrypt env pk' aks' o.text o.lang o.plain o.tape = .ok (c, u)) os cs' →
      (View.all (cs.map Ciphertext.seen)).one = (View.all (cs'.map Ciphertext.seen)).one ∧
      (View.all (cs.map Ciphertext.seen)).two = (View.all (cs'.map Ciphertext.seen)).two ∧
      Moves X Y ((slopes ks os).map fun x => (x, 0)) (View.all (cs.map Ciphertext.seen)).tgt
        (View.all (cs'.map Ciphertext.seen)).tgt
  | _, _, _, .nil, .nil => ⟨rfl, rfl, trivial⟩
  | o :: _, _, _, .cons ⟨_, a⟩ l, .cons ⟨_, b⟩ m => by
    obtain ⟨h1, h2, h3⟩ := cts_move haks haks' hpk Y l m
    have ha := encrypt_seen haks a
    have hb := encrypt_seen haks' b
    obtain ⟨i1, i2, i3⟩ := tuples_move (msg := env.pair (o.tape.g1 0) (o.tape.g2 0)) hpk (0 : F) Y (zero_smul F Y).symm
      o.tape.fr (exponents o.text o.lang ks)
    rw [add_zero, ← ha, ← hb] at i1 i2 i3
    refine ⟨?_, ?_, ?_⟩
    · simp only [List.map_cons, View.all, View.join, h1, Ciphertext.seen, i1]
    · simp only [List.map_cons, View.all, View.join, h2, Ciphertext.seen, i2]
    · simp only [slopes, List.flatMap_cons, List.map_append]
      exact i3.append h3

open Classical in
/-- **C77, BDABE.** For every computation, every policy and plaintext, all requested public attribute keys, all other
ciphertexts and all random numbers there is a random number of the encryption such that the computation opens the
ciphertext for at most `2 · q²` of the `q³` choices of this number, the session element and the master secret. The
exponents of the attributes of a conjunction must not sum to zero. -/
theorem C77_outsider [Fintype F] (env : Env F G1 G2 Gt) (k : Formula F) (t : Tape F G1 G2 Gt)
    (hpair : env.pair (t.g1 0) (t.g2 0) ≠ 0) (reqs : List (KeyRequest F G1 G2 Gt)) (job : CpJob F G1 G2 Gt)
    (hmsg : env.pair (job.tape.g1 0) (job.tape.g2 0) ≠ 0)
    (hexp : ∀ T ∈ exponents job.text job.lang (formalKeys env reqs), T.gt1 ≠ 0)
    (others : List (CpJob F G1 G2 Gt)) (extra : View G1 G2 Gt) :
    ∃ n, (Finset.univ.filter (Opened env k t reqs job others extra n)).card ≤ 2 * Fintype.card F * Fintype.card F := by
  obtain ⟨n, hn⟩ := count_copies k.tgt (extra.tgt.map (fun _ => 0) ++ (1 :: reqs.map (exponent env)))
    ((exponents job.text job.lang (formalKeys env reqs)).map (·.gt1)) (slopes (formalKeys env reqs) others)
    (by simpa using hexp) _ _ hpair hmsg job.tape.fr
  refine ⟨n, hn _ ?_⟩
  intro s m m' a a' h h'
  simp only [Finset.mem_filter, Finset.mem_univ, true_and] at h h'
  obtain ⟨pk, msk, t', aks, ct, u, cts, hs, ha, he, ho, hk⟩ := h
  obtain ⟨pk', msk', t'', aks', ct', u', cts', hs', ha', he', ho', hk'⟩ := h'
  have hpk := setup_shift hs hs'
  have hr := requested ha
  have hr' := requested ha'
  have hv : aks.map PublicAttributeKey.view =
      (formalKeys env reqs).map (PubAttr.map (smulHom pk.g1) (smulHom pk.g2) (smulHom pk.eGgY) 0) := by
    rw [hr]; simp [formalKeys, attrKey, PubAttr.map, PublicAttributeKey.view, smulHom]
  have hv' : aks'.map PublicAttributeKey.view =
      (formalKeys env reqs).map (PubAttr.map (smulHom pk'.g1) (smulHom pk'.g2) (smulHom pk'.eGgY) 0) := by
    rw [hr']; simp [formalKeys, attrKey, PubAttr.map, PublicAttributeKey.view, smulHom]
  obtain ⟨o1, o2, o3⟩ := cts_move hv hv' hpk ((m' - m) • env.pair (job.tape.g1 0) (job.tape.g2 0)) ho ho'
  have hc := encrypt_seen hv he
  have hc' := encrypt_seen hv' he'
  have e1 : ∀ x : F, env.pair (((job.tape.setFr n s).scaleG1 x).g1 0) (((job.tape.setFr n s).scaleG1 x).g2 0) =
      x • env.pair (job.tape.g1 0) (job.tape.g2 0) := by
    intro x; simp [Tape.scaleG1, Tape.setFr]
  simp only [e1] at hc hc'
  obtain ⟨c1, c2, c3⟩ := tuples_move (msg := m • env.pair (job.tape.g1 0) (job.tape.g2 0)) hpk (1 : F)
    ((m' - m) • env.pair (job.tape.g1 0) (job.tape.g2 0)) (one_smul F _).symm (setS job.tape.fr n s)
    (exponents job.text job.lang (formalKeys env reqs))
  rw [← add_smul, add_sub_cancel] at c1 c2 c3
  replace hc : ct.j = tuples pk (m • env.pair (job.tape.g1 0) (job.tape.g2 0)) (setS job.tape.fr n s)
    ((exponents job.text job.lang (formalKeys env reqs)).map (realTerm pk)) := hc
  replace hc' : ct'.j = tuples pk' (m' • env.pair (job.tape.g1 0) (job.tape.g2 0)) (setS job.tape.fr n s)
    ((exponents job.text job.lang (formalKeys env reqs)).map (realTerm pk')) := hc'
  rw [← hc, ← hc'] at c1 c2 c3
  obtain ⟨a1, a2, a3⟩ := aks_move env hpk reqs ((m' - m) • env.pair (job.tape.g1 0) (job.tape.g2 0))
  rw [← hr, ← hr'] at a1 a2 a3
  refine ⟨_, _, ?_, (eval_sub env k (v := View.all (extra :: pk'.seen :: View.all (aks'.map PublicAttributeKey.seen) ::
    ct'.seen :: cts'.map Ciphertext.seen)) (w := View.all (extra :: pk.seen :: View.all (aks.map PublicAttributeKey.seen) ::
    ct.seen :: cts.map Ciphertext.seen)) ?_ ?_).symm.trans ?_⟩
  · have hp : Moves ((a' - a) • env.pair (t.g1 0) (t.g2 0)) ((m' - m) • env.pair (job.tape.g1 0) (job.tape.g2 0))
        [((1 : F), (0 : F))] pk.seen.tgt pk'.seen.tgt := by
      rw [hpk]
      exact ⟨by simp [PublicKey.seen], trivial⟩
    have := (Moves.refl (F := F) ((a' - a) • env.pair (t.g1 0) (t.g2 0)) ((m' - m) • env.pair (job.tape.g1 0) (job.tape.g2 0))
      extra.tgt).append (hp.append (a3.append (c3.append o3)))
    simpa [List.map_append, List.map_map, Function.comp_def, View.all, View.join, Ciphertext.seen] using this
  · simp only [View.all, View.join, o1, Ciphertext.seen, c1, a1, hpk, PublicKey.seen]
  · simp only [View.all, View.join, o2, Ciphertext.seen, c2, a2, hpk, PublicKey.seen]
  · rw [hk, hk', sub_smul]

end Bdabe

namespace Mke08

/-- The group elements of a public key, `/repo/src/schemes/mke08/mod.rs:54-61`. -/
def PublicKey.seen (pk : PublicKey G1 G2 Gt) : View G1 G2 Gt := ⟨[pk.g1, pk.p1], [pk.g2, pk.p2], [pk.eGgY1, pk.eGgY2]⟩

/-- The group elements of a public attribute key, `/repo/src/schemes/mke08/mod.rs:114-120`. -/
def PublicAttributeKey.seen (k : PublicAttributeKey G1 G2 Gt) : View G1 G2 Gt := ⟨[k.g1], [k.g2], [k.gt1, k.gt2]⟩

/-- The group elements of a ciphertext, `/repo/src/schemes/mke08/mod.rs:136-154`. -/
def Ciphertext.seen (ct : Ciphertext G1 G2 Gt) : View G1 G2 Gt :=
  ⟨ct.e.map (·.j3) ++ ct.e.map (·.j5), ct.e.map (·.j4) ++ ct.e.map (·.j6), ct.e.map (·.j1) ++ ct.e.map (·.j2)⟩

/-- The secret exponent of a requested attribute, `/repo/src/schemes/mke08/mod.rs:242-247`. -/
def exponent (env : Env F G1 G2 Gt) (r : KeyRequest F G1 G2 Gt) : F := env.hash r.attr * env.hash r.auth * r.tape.fr 0

/-- The requested keys as exponents. -/
def formalKeys (env : Env F G1 G2 Gt) (reqs : List (KeyRequest F G1 G2 Gt)) : List (PubAttr F F F) :=
  reqs.map fun r => ⟨r.attr, exponent env r, exponent env r, exponent env r, exponent env r⟩

/-- The computation `k` finds the element the plaintext is encrypted under in the ciphertext made by `job`. The varied
values are random number `n + 1` of the encryption, the factor between the two parts of the session element (its random
number 0) and the second master secret. -/
def Opened (env : Env F G1 G2 Gt) (k : Formula F) (t : Tape F G1 G2 Gt) (reqs : List (KeyRequest F G1 G2 Gt))
    (job : CpJob F G1 G2 Gt) (others : List (CpJob F G1 G2 Gt)) (extra : View G1 G2 Gt) (n : ℕ) (x : F × F × F) : Prop :=
  ∃ pk msk t' aks ct u cts, setup env (t.setFr 1 x.2.2) = .ok ((pk, msk), t') ∧
    List.Forall₂ (fun r ak => ∃ a u, authgen r.auth r.tape = .ok (a, u) ∧
      requestAuthorityPk env pk r.attr a = .ok ak) reqs aks ∧
    encrypt env pk aks job.text job.lang job.plain ((job.tape.setFr (n + 1) x.1).setFr 0 x.2.1) = .ok (ct, u) ∧
    List.Forall₂ (fun o c => ∃ u, encrypt env pk aks o.text o.lang o.plain o.tape = .ok (c, u)) others cts ∧
    k.eval env (View.all (extra :: pk.seen :: View.all (aks.map PublicAttributeKey.seen) :: ct.seen ::
      cts.map Ciphertext.seen)) = (1 + x.2.1) • env.pair (job.tape.g1 0) (job.tape.g2 0)

/-- The tuples of a ciphertext. -/
def tuples (pk : PublicKey G1 G2 Gt) (msg1 msg2 : Gt) :
    (ℕ → F) → List (DnfTerm G1 G2 Gt) → List (CTConjunction G1 G2 Gt)
  | _, [] => []
  | r, T :: Ts => { str := T.attrs, j1 := r 0 • T.gt1 + msg1, j2 := r 0 • T.gt2 + msg2, j3 := r 0 • pk.p1,
                    j4 := r 0 • pk.p2, j5 := r 0 • T.g1, j6 := r 0 • T.g2 } :: tuples pk msg1 msg2 (dropS 1 r) Ts

theorem mapL_encTerm (pk : PublicKey G1 G2 Gt) (msg1 msg2 : Gt) : ∀ (l : List (DnfTerm G1 G2 Gt)) (t t' : Tape F G1 G2 Gt)
    (c : List (CTConjunction G1 G2 Gt)), RM.mapL (encTerm pk msg1 msg2) l t = .ok (c, t') → c = tuples pk msg1 msg2 t.fr l
  | [], t, t', c, h => by
    have h' : (pure [] : RM F G1 G2 Gt _) t = .ok (c, t') := h
    exact (RM.pure_ok.1 h').1
  | T :: Ts, t, t', c, h => by
    have h' : (encTerm pk msg1 msg2 T >>= fun y => RM.mapL (encTerm pk msg1 msg2) Ts >>= fun ys => pure (y :: ys)) t =
      .ok (c, t') := h
    simp only [RM.bind_ok, encTerm, RM.genFr, RM.pure_ok, Res.ok.injEq, Prod.mk.injEq] at h'
    obtain ⟨_, _, ⟨_, _, ⟨rfl, rfl⟩, rfl, rfl⟩, ys, _, hys, rfl, rfl⟩ := h'
    rw [tuples, mapL_encTerm pk msg1 msg2 Ts _ _ _ hys]

/-- The term of a policy that belongs to a term of exponents. -/
abbrev realTerm (pk : PublicKey G1 G2 Gt) : DnfTerm F F F → DnfTerm G1 G2 Gt :=
  DnfTerm.map (smulHom pk.g1) (smulHom pk.g2) (smulHom pk.eGgY1) (smulHom pk.eGgY2)

theorem encrypt_seen {env : Env F G1 G2 Gt} {pk : PublicKey G1 G2 Gt} {aks : List (PublicAttributeKey G1 G2 Gt)}
    {ks : List (PubAttr F F F)}
    (haks : aks.map PublicAttributeKey.view =
      ks.map (PubAttr.map (smulHom pk.g1) (smulHom pk.g2) (smulHom pk.eGgY1) (smulHom pk.eGgY2)))
    {text : Str} {lang : PolicyLanguage} {m : Bytes} {t t' : Tape F G1 G2 Gt} {ct : Ciphertext G1 G2 Gt}
    (h : encrypt env pk aks text lang m t = .ok (ct, t')) :
    ct.e = tuples pk (env.pair (t.g1 0) (t.g2 0)) (t.fr 0 • env.pair (t.g1 0) (t.g2 0)) (dropS 1 t.fr)
      ((exponents text lang ks).map (realTerm pk)) := by
  simp only [encrypt, RM.bind_ok, RM.lift_ok_iff] at h
  obtain ⟨v, _, ⟨hv, rfl⟩, h⟩ := h
  split at h
  · simp only [RM.bind_ok, RM.genG1, RM.genG2, RM.genFr, RM.lift_ok_iff, RM.pure_ok, Res.ok.injEq,
      Prod.mk.injEq, encryptSymmetric_ok_iff, haks] at h
    obtain ⟨l, _, ⟨hl, rfl⟩, _, _, ⟨rfl, rfl⟩, _, _, ⟨rfl, rfl⟩, _, _, ⟨rfl, rfl⟩, js, _, hjs, d, _, ⟨rfl, c, hc, rfl⟩, rfl, rfl⟩ := h
    cases hT : DnfPolicy.fromString text
        (ks.map (PubAttr.map (smulHom pk.g1) (smulHom pk.g2) (smulHom pk.eGgY1) (smulHom pk.eGgY2))) lang with
    | err => rw [hT] at hl; simp [Res.unwrap] at hl
    | panic => rw [hT] at hl; simp [Res.unwrap] at hl
    | ok l' =>
      obtain rfl : l' = l := by rw [hT] at hl; simpa [Res.unwrap] using hl
      obtain ⟨T, h1, h2⟩ := fromString_map _ _ _ _ hT
      rw [mapL_encTerm _ _ _ _ _ _ _ hjs, h2]
      simp [exponents, h1]
  · simp at h

theorem tuples_move {pk pk' : PublicKey G1 G2 Gt} {X msg1 msg2 D : Gt}
    (hpk : pk' = { pk with eGgY2 := pk.eGgY2 + X }) (c : F) (Y : Gt) (hD : D = c • Y) :
    ∀ (r : ℕ → F) (T : List (DnfTerm F F F)),
      (tuples pk msg1 msg2 r (T.map (realTerm pk))).map (fun j => (j.j1, j.j3, j.j4, j.j5, j.j6)) =
        (tuples pk' msg1 (msg2 + D) r (T.map (realTerm pk'))).map (fun j => (j.j1, j.j3, j.j4, j.j5, j.j6)) ∧
      (tuples pk msg1 msg2 r (T.map (realTerm pk))).length = T.length ∧
      Moves X Y ((mulIdx r (T.map (·.gt2))).map fun x => (x, c))
        ((tuples pk msg1 msg2 r (T.map (realTerm pk))).map (·.j2))
        ((tuples pk' msg1 (msg2 + D) r (T.map (realTerm pk'))).map (·.j2))
  | r, [] => ⟨rfl, rfl, trivial⟩
  | r, T :: Ts => by
    obtain ⟨h1, h2, h3⟩ := tuples_move hpk c Y hD (dropS 1 r) Ts
    subst hpk hD
    refine ⟨?_, ?_, ?_, h3⟩
    · simp only [List.map_cons, tuples, h1]; rfl
    · simp only [List.map_cons, tuples, List.length_cons, h2]
    · simp only [realTerm, DnfTerm.map, smulHom, AddMonoidHom.coe_mk, ZeroHom.coe_mk]
      module

theorem setup_shift {env : Env F G1 G2 Gt} {t t' t'' : Tape F G1 G2 Gt} {a a' : F} {pk pk' : PublicKey G1 G2 Gt}
    {msk msk' : MasterKey G1 G2} (h : setup env (t.setFr 1 a) = .ok ((pk, msk), t'))
    (h' : setup env (t.setFr 1 a') = .ok ((pk', msk'), t'')) :
    pk' = { pk with eGgY2 := pk.eGgY2 + (a' - a) • env.pair (t.g1 0) (t.g2 0) } := by
  simp only [setup, RM.bind_ok, RM.genG1, RM.genG2, RM.genFr, RM.pure_ok, Res.ok.injEq, Prod.mk.injEq, Tape.setFr] at h h'
  obtain ⟨_, _, ⟨rfl, rfl⟩, _, _, ⟨rfl, rfl⟩, _, _, ⟨rfl, rfl⟩, _, _, ⟨rfl, rfl⟩, _, _, ⟨rfl, rfl⟩, _, _, ⟨rfl, rfl⟩,
    ⟨rfl, rfl⟩, rfl⟩ := h
  obtain ⟨_, _, ⟨rfl, rfl⟩, _, _, ⟨rfl, rfl⟩, _, _, ⟨rfl, rfl⟩, _, _, ⟨rfl, rfl⟩, _, _, ⟨rfl, rfl⟩, _, _, ⟨rfl, rfl⟩,
    ⟨rfl, rfl⟩, rfl⟩ := h'
  simp only [PublicKey.mk.injEq, true_and]
  simp [dropS]
  module

/-- The public attribute key of a request, `/repo/src/schemes/mke08/mod.rs:242-254`. -/
def attrKey (env : Env F G1 G2 Gt) (pk : PublicKey G1 G2 Gt) (r : KeyRequest F G1 G2 Gt) : PublicAttributeKey G1 G2 Gt where
  attr := r.attr
  g1 := exponent env r • pk.g1
  g2 := exponent env r • pk.g2
  gt1 := exponent env r • pk.eGgY1
  gt2 := exponent env r • pk.eGgY2

/-- The public attribute keys are the exponents times the public key. -/
theorem requested {env : Env F G1 G2 Gt} {pk : PublicKey G1 G2 Gt} :
    ∀ {reqs : List (KeyRequest F G1 G2 Gt)} {aks : List (PublicAttributeKey G1 G2 Gt)},
    List.Forall₂ (fun r ak => ∃ a u, authgen r.auth r.tape = .ok (a, u) ∧
      requestAuthorityPk env pk r.attr a = .ok ak) reqs aks →
    aks = reqs.map (attrKey env pk)
  | _, _, .nil => rfl
  | _, _, .cons ⟨a, u, h1, h2⟩ l => by
    rw [requested l, List.map_cons]
    congr 1
    simp only [authgen, RM.bind_ok, RM.genFr, RM.pure_ok, Res.ok.injEq, Prod.mk.injEq] at h1
    obtain ⟨_, _, ⟨rfl, rfl⟩, rfl, rfl⟩ := h1
    simp only [requestAuthorityPk] at h2
    split at h2
    · simpa [attrKey, exponent, dropS] using h2.symm
    · simp at h2

theorem aks_move (env : Env F G1 G2 Gt) {pk pk' : PublicKey G1 G2 Gt} {X : Gt}
    (hpk : pk' = { pk with eGgY2 := pk.eGgY2 + X }) (reqs : List (KeyRequest F G1 G2 Gt)) (Y : Gt) :
    (View.all ((reqs.map (attrKey env pk)).map PublicAttributeKey.seen)).one =
      (View.all ((reqs.map (attrKey env pk')).map PublicAttributeKey.seen)).one ∧
    (View.all ((reqs.map (attrKey env pk)).map PublicAttributeKey.seen)).two =
      (View.all ((reqs.map (attrKey env pk')).map PublicAttributeKey.seen)).two ∧
    Moves X Y ((reqs.flatMap fun r => [0, exponent env r]).map fun x => (x, 0))
      (View.all ((reqs.map (attrKey env pk)).map PublicAttributeKey.seen)).tgt
      (View.all ((reqs.map (attrKey env pk')).map PublicAttributeKey.seen)).tgt := by
  induction reqs with
  | nil => exact ⟨rfl, rfl, trivial⟩
  | cons r reqs ih =>
    obtain ⟨h1, h2, h3⟩ := ih
    refine ⟨?_, ?_, ?_, ?_, h3⟩
    · simp only [List.map_cons, View.all, View.join, h1]; rw [hpk]; rfl
    · simp only [List.map_cons, View.all, View.join, h2]; rw [hpk]; rfl
    · simp only [attrKey, hpk]; module
    · simp only [attrKey, hpk]; module

/-- The coefficients of the master secret in the ciphertexts made by `others`. -/
def slopes (ks : List (PubAttr F F F)) (others : List (CpJob F G1 G2 Gt)) : List F :=
  others.flatMap fun o => (exponents o.text o.lang ks).map (fun _ => 0) ++
    mulIdx (dropS 1 o.tape.fr) ((exponents o.text o.lang ks).map (·.gt2))

theorem seen_move {pk pk' : PublicKey G1 G2 Gt} {X msg1 msg2 D : Gt}
    (hpk : pk' = { pk with eGgY2 := pk.eGgY2 + X }) (c : F) (Y : Gt) (hD : D = c • Y) (r : ℕ → F)
    (T : List (DnfTerm F F F)) {ct ct' : Ciphertext G1 G2 Gt}
    (h : ct.e = tuples pk msg1 msg2 r (T.map (realTerm pk)))
    (h' : ct'.e = tuples pk' msg1 (msg2 + D) r (T.map (realTerm pk'))) :
    ct.seen.one = ct'.seen.one ∧ ct.seen.two = ct'.seen.two ∧
      Moves X Y (T.map (fun _ => (0, 0)) ++ (mulIdx r (T.map (·.gt2))).map fun x => (x, c)) ct.seen.tgt ct'.seen.tgt := by
  obtain ⟨h1, h2, h3⟩ := tuples_move (msg1 := msg1) (msg2 := msg2) hpk c Y hD r T
  rw [← h, ← h'] at h1 h3
  rw [← h] at h2
  have g := fun {α : Type} (f : Gt × G1 × G2 × G1 × G2 → α) => congrArg (List.map f) h1
  simp only [List.map_map, Function.comp_def] at g
  refine ⟨?_, ?_, ?_⟩
  · simp only [Ciphertext.seen, g fun x => x.2.1, g fun x => x.2.2.2.1]
  · simp only [Ciphertext.seen, g fun x => x.2.2.1, g fun x => x.2.2.2.2]
  · refine Moves.append ?_ h3
    rw [← g fun x => x.1]
    have := Moves.refl (F := F) X Y (ct.e.map (·.j1))
    rwa [show ((ct.e.map (·.j1)).map fun _ => ((0 : F), (0 : F))) = T.map fun _ => (0, 0) by
      rw [List.map_const', List.map_const', List.length_map, h2]] at this

theorem cts_move {env : Env F G1 G2 Gt} {pk pk' : PublicKey G1 G2 Gt} {aks aks' : List (PublicAttributeKey G1 G2 Gt)}
    {ks : List (PubAttr F F F)} {X : Gt}
    (haks : aks.map PublicAttributeKey.view =
      ks.map (PubAttr.map (smulHom pk.g1) (smulHom pk.g2) (smulHom pk.eGgY1) (smulHom pk.eGgY2)))
    (haks' : aks'.map PublicAttributeKey.view =
      ks.map (PubAttr.map (smulHom pk'.g1) (smulHom pk'.g2) (smulHom pk'.eGgY1) (smulHom pk'.eGgY2)))
    (hpk : pk' = { pk with eGgY2 := pk.eGgY2 + X }) (Y : Gt) :
    ∀ {os : List (CpJob F G1 G2 Gt)} {cs cs' : List (Ciphertext G1 G2 Gt)},
      List.Forall₂ (fun o c => ∃ u, encrypt env pk aks o.text o.lang o.plain o.tape = .ok (c, u)) os cs →
      List.Forall₂ (fun o c => ∃ u, encrypt env pk' aks' o.text o.lang o.plain o.tape = .ok (c, u)) os cs' →
      (View.all (cs.map Ciphertext.seen)).one = (View.all (cs'.map Ciphertext.seen)).one ∧
      (View.all (cs.map Ciphertext.seen)).two = (View.all (cs'.map Ciphertext.seen)).two ∧
      Moves X Y ((slopes ks os).map fun x => (x, 0)) (View.all (cs.map Ciphertext.seen)).tgt
        (View.all (cs'.map Ciphertext.seen)).tgt
  | _, _, _, .nil, .nil => ⟨rfl, rfl, trivial⟩
  | o :: _, _, _, .cons ⟨_, a⟩ l, .cons ⟨_, b⟩ m => by
    obtain ⟨h1, h2, h3⟩ := cts_move haks haks' hpk Y l m
    have ha := encrypt_seen haks a
    have hb := encrypt_seen haks' b
    obtain ⟨i1, i2, i3⟩ := seen_move hpk (0 : F) Y (zero_smul F Y).symm _ _ ha (by rw [add_zero]; exact hb)
    refine ⟨?_, ?_, ?_⟩
    · simp only [List.map_cons, View.all, View.join, h1, i1]
    · simp only [List.map_cons, View.all, View.join, h2, i2]
    · have := i3.append h3
      simp only [slopes, List.flatMap_cons, List.map_append, List.map_map, Function.comp_def] at this ⊢
      exact this

open Classical in
/-- **C77, MKE08.** For every computation, every policy and plaintext, all requested public attribute keys, all other
ciphertexts and all random numbers there is a random number of the encryption such that the computation finds the element
the plaintext is encrypted under for at most `2 · q²` of the `q³` choices of this number, the second part of the session
element and the second master secret. The exponents of the attributes of a conjunction must not sum to zero. -/
theorem C77_outsider [Fintype F] (env : Env F G1 G2 Gt) (k : Formula F) (t : Tape F G1 G2 Gt)
    (hpair : env.pair (t.g1 0) (t.g2 0) ≠ 0) (reqs : List (KeyRequest F G1 G2 Gt)) (job : CpJob F G1 G2 Gt)
    (hmsg : env.pair (job.tape.g1 0) (job.tape.g2 0) ≠ 0)
    (hexp : ∀ T ∈ exponents job.text job.lang (formalKeys env reqs), T.gt2 ≠ 0)
    (others : List (CpJob F G1 G2 Gt)) (extra : View G1 G2 Gt) :
    ∃ n, (Finset.univ.filter (Opened env k t reqs job others extra n)).card ≤ 2 * Fintype.card F * Fintype.card F := by
  obtain ⟨n, hn⟩ := count_copies k.tgt (extra.tgt.map (fun _ => 0) ++ (0 :: 1 :: (reqs.flatMap fun r => [0, exponent env r])) ++
      (exponents job.text job.lang (formalKeys env reqs)).map (fun _ => 0))
    ((exponents job.text job.lang (formalKeys env reqs)).map (·.gt2)) (slopes (formalKeys env reqs) others)
    (by simpa using hexp) _ _ hpair hmsg (dropS 1 job.tape.fr)
  refine ⟨n, hn _ ?_⟩
  intro s m m' a a' h h'
  simp only [Finset.mem_filter, Finset.mem_univ, true_and] at h h'
  obtain ⟨pk, msk, t', aks, ct, u, cts, hs, ha, he, ho, hk⟩ := h
  obtain ⟨pk', msk', t'', aks', ct', u', cts', hs', ha', he', ho', hk'⟩ := h'
  have hpk := setup_shift hs hs'
  have hr := requested ha
  have hr' := requested ha'
  have hv : aks.map PublicAttributeKey.view =
      (formalKeys env reqs).map (PubAttr.map (smulHom pk.g1) (smulHom pk.g2) (smulHom pk.eGgY1) (smulHom pk.eGgY2)) := by
    rw [hr]; simp [formalKeys, attrKey, PubAttr.map, PublicAttributeKey.view, smulHom]
  have hv' : aks'.map PublicAttributeKey.view =
      (formalKeys env reqs).map (PubAttr.map (smulHom pk'.g1) (smulHom pk'.g2) (smulHom pk'.eGgY1) (smulHom pk'.eGgY2)) := by
    rw [hr']; simp [formalKeys, attrKey, PubAttr.map, PublicAttributeKey.view, smulHom]
  obtain ⟨o1, o2, o3⟩ := cts_move hv hv' hpk ((m' - m) • env.pair (job.tape.g1 0) (job.tape.g2 0)) ho ho'
  have hc := encrypt_seen hv he
  have hc' := encrypt_seen hv' he'
  have e1 : ∀ x : F, dropS 1 ((job.tape.setFr (n + 1) s).setFr 0 x).fr = setS (dropS 1 job.tape.fr) n s := by
    intro x; funext i; simp [Tape.setFr, dropS, setS, Nat.add_comm 1 i]
  have e2 : ∀ x : F, ((job.tape.setFr (n + 1) s).setFr 0 x).fr 0 = x := by
    intro x; simp [Tape.setFr]
  have e3 : ∀ x : F, env.pair (((job.tape.setFr (n + 1) s).setFr 0 x).g1 0) (((job.tape.setFr (n + 1) s).setFr 0 x).g2 0) =
      env.pair (job.tape.g1 0) (job.tape.g2 0) := fun x => rfl
  simp only [e1, e2, e3] at hc hc'
  obtain ⟨c1, c2, c3⟩ := seen_move hpk (1 : F) ((m' - m) • env.pair (job.tape.g1 0) (job.tape.g2 0)) (one_smul F _).symm _ _
    hc (by rw [← add_smul, add_sub_cancel]; exact hc')
  obtain ⟨a1, a2, a3⟩ := aks_move env hpk reqs ((m' - m) • env.pair (job.tape.g1 0) (job.tape.g2 0))
  rw [← hr, ← hr'] at a1 a2 a3
  refine ⟨_, _, ?_, (eval_sub env k (v := View.all (extra :: pk'.seen :: View.all (aks'.map PublicAttributeKey.seen) ::
    ct'.seen :: cts'.map Ciphertext.seen)) (w := View.all (extra :: pk.seen :: View.all (aks.map PublicAttributeKey.seen) ::
    ct.seen :: cts.map Ciphertext.seen)) ?_ ?_).symm.trans ?_⟩
  · have hp : Moves ((a' - a) • env.pair (t.g1 0) (t.g2 0)) ((m' - m) • env.pair (job.tape.g1 0) (job.tape.g2 0))
        [((0 : F), (0 : F)), ((1 : F), (0 : F))] pk.seen.tgt pk'.seen.tgt := by
      rw [hpk]
      exact ⟨by simp, by simp, trivial⟩
    have := (Moves.refl (F := F) ((a' - a) • env.pair (t.g1 0) (t.g2 0)) ((m' - m) • env.pair (job.tape.g1 0) (job.tape.g2 0))
      extra.tgt).append (hp.append (a3.append (c3.append o3)))
    simpa [List.map_append, List.map_map, Function.comp_def, View.all, View.join] using this
  · simp only [View.all, View.join, o1, c1, a1, hpk, PublicKey.seen]
  · simp only [View.all, View.join, o2, c2, a2, hpk, PublicKey.seen]
  · rw [hk, hk', ← sub_smul]
    congr 1; ring

end Mke08
end Rabe
