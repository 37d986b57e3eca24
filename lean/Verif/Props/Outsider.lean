import Verif.Props.Payload
import Verif.Proof.Generic

/-!
# C77: without a key no fixed computation opens a ciphertext

An observer has the public key, a ciphertext, and any number of other ciphertexts under the same public key whose
plaintexts, policies and random numbers may be chosen freely, and any further group elements (`extra`) that were
obtained without these keys, such as the session elements of the other ciphertexts. They compute an element of `Gt` by a fixed computation
(`Formula`). The theorems count the values of the master secret, of the encryption secret and of the session element
for which the result is the session element, all other random numbers being arbitrary: a fraction of at most `2 / q`.
-/

set_option linter.unusedSectionVars false

namespace Rabe

variable {F G1 G2 Gt : Type} [Field F] [DecidableEq F] [AddCommGroup G1] [Module F G1]
  [AddCommGroup G2] [Module F G2] [AddCommGroup Gt] [Module F Gt]

/-- The stream with another random number at one position. -/
def Tape.setFr (t : Tape F G1 G2 Gt) (i : ℕ) (x : F) : Tape F G1 G2 Gt :=
  { t with fr := fun n => if n = i then x else t.fr n }

/-- One call of a ciphertext-policy encryption: policy, language, plaintext and random numbers. -/
structure CpJob (F G1 G2 Gt : Type) where
  text : Str
  lang : PolicyLanguage
  plain : Bytes
  tape : Tape F G1 G2 Gt

/-- One call of a key-policy encryption: attributes, plaintext and random numbers. -/
structure KpJob (F G1 G2 Gt : Type) where
  attrs : List Str
  plain : Bytes
  tape : Tape F G1 G2 Gt

/-- The result depends on the random numbers of `F` only, and nothing else is drawn. -/
def FrOnly {α : Type} (x : RM F G1 G2 Gt α) : Prop :=
  ∀ t a t', x t = .ok (a, t') → t' = { t with fr := t'.fr } ∧
    ∀ u b u', u.fr = t.fr → x u = .ok (b, u') → a = b ∧ u'.fr = t'.fr

theorem FrOnly.pure {α : Type} (a : α) : FrOnly (pure a : RM F G1 G2 Gt α) := by
  intro t b t' h1
  simp only [RM.pure_ok] at h1
  obtain ⟨rfl, rfl⟩ := h1
  refine ⟨rfl, fun u c u' h h2 => ?_⟩
  simp only [RM.pure_ok] at h2
  exact ⟨h2.1.symm, by rw [h2.2, h]⟩

theorem FrOnly.lift {α : Type} (a : Res α) : FrOnly (RM.lift a : RM F G1 G2 Gt α) := by
  intro t b t' h1
  rw [RM.lift_ok_iff] at h1
  obtain ⟨h1, rfl⟩ := h1
  refine ⟨rfl, fun u c u' h h2 => ?_⟩
  rw [RM.lift_ok_iff] at h2
  obtain ⟨h2, rfl⟩ := h2
  exact ⟨by simpa using h1.symm.trans h2, h⟩

theorem FrOnly.genFr : FrOnly (RM.genFr : RM F G1 G2 Gt F) := by
  intro t b t' h1
  simp only [RM.genFr, Res.ok.injEq, Prod.mk.injEq] at h1
  obtain ⟨rfl, rfl⟩ := h1
  refine ⟨rfl, fun u c u' h h2 => ?_⟩
  simp only [RM.genFr, Res.ok.injEq, Prod.mk.injEq] at h2
  obtain ⟨rfl, rfl⟩ := h2
  exact ⟨by rw [h], by simp only [h]⟩

theorem FrOnly.bind {α β : Type} {x : RM F G1 G2 Gt α} {f : α → RM F G1 G2 Gt β} (hx : FrOnly x) (hf : ∀ a, FrOnly (f a)) :
    FrOnly (x >>= f) := by
  intro t b t' h1
  rw [RM.bind_ok] at h1
  obtain ⟨a, s, ha, h1⟩ := h1
  obtain ⟨e1, hx⟩ := hx _ _ _ ha
  obtain ⟨e2, hf'⟩ := hf a _ _ _ h1
  refine ⟨by rw [e2, e1], fun u c u' h h2 => ?_⟩
  rw [RM.bind_ok] at h2
  obtain ⟨a', s', ha', h2⟩ := h2
  obtain ⟨rfl, e⟩ := hx _ _ _ h ha'
  exact hf' _ _ _ e h2

theorem FrOnly.mapL {α β : Type} {f : α → RM F G1 G2 Gt β} (hf : ∀ a, FrOnly (f a)) : ∀ l, FrOnly (RM.mapL f l)
  | [] => FrOnly.pure _
  | a :: l => FrOnly.bind (hf a) fun _ => FrOnly.bind (FrOnly.mapL hf l) fun _ => FrOnly.pure _

namespace Bsw

/-- The group elements of a public key, `/repo/src/schemes/bsw/mod.rs:43-49`. -/
def PublicKey.seen (pk : PublicKey G1 G2 Gt) : View G1 G2 Gt := ⟨[pk.g1, pk.h], [pk.g2, pk.f], [pk.eGgAlpha]⟩

/-- The group elements of a ciphertext, `/repo/src/schemes/bsw/mod.rs:64-70`. -/
def Ciphertext.seen (ct : Ciphertext G1 G2 Gt) : View G1 G2 Gt :=
  ⟨ct.c :: ct.cY.map (·.g1), ct.cY.map (·.g2), [ct.cP]⟩

/-- The computation `k` finds the session element `msg` of the ciphertext made by `job` with the encryption secret `s`
under a public key with the master secret `alpha`. -/
def Opened (env : Env F G1 G2 Gt) (k : Formula F) (t : Tape F G1 G2 Gt) (job : CpJob F G1 G2 Gt)
    (others : List (CpJob F G1 G2 Gt)) (extra : View G1 G2 Gt) (x : F × Gt × F) : Prop :=
  ∃ pk msk t' ct u cts, setup env (t.setFr 1 x.2.2) = .ok ((pk, msk), t') ∧
    encrypt env pk job.text job.lang job.plain ((job.tape.setFr 0 x.1).setGt x.2.1) = .ok (ct, u) ∧
    List.Forall₂ (fun o c => ∃ u, encrypt env pk o.text o.lang o.plain o.tape = .ok (c, u)) others cts ∧
    k.eval env (View.all (extra :: pk.seen :: ct.seen :: cts.map Ciphertext.seen)) = x.2.1

theorem encrypt_seen {env : Env F G1 G2 Gt} {pk : PublicKey G1 G2 Gt} {text : Str} {lang : PolicyLanguage} {m : Bytes}
    {t t' : Tape F G1 G2 Gt} {ct : Ciphertext G1 G2 Gt} (h : encrypt env pk text lang m t = .ok (ct, t')) :
    ∃ v sh ω, parse text lang = .ok v ∧ genSharesPolicy v (t.fr 0) none (dropS 1 t.fr) = .ok (some sh, ω) ∧
      ct.seen = ⟨t.fr 0 • pk.h :: sh.map fun s => s.2 • pk.g1,
        sh.map fun s => s.2 • env.sha3Hash pk.g2 (removeIndex s.1), [t.fr 0 • pk.eGgAlpha + t.gt 0]⟩ := by
  simp only [encrypt, RM.bind_ok, RM.genFr, RM.genGt, RM.lift_ok_iff, liftFr_ok_iff, RM.pure_ok, Res.ok.injEq,
    Prod.mk.injEq, encryptSymmetric_ok_iff] at h
  obtain ⟨_, _, ⟨rfl, rfl⟩, _, _, ⟨rfl, rfl⟩, v, _, ⟨hv, rfl⟩, sh, _, ⟨ω, hs, rfl⟩, sh', _, ⟨hs', rfl⟩, d, _,
    ⟨rfl, c, hc, rfl⟩, rfl, rfl⟩ := h
  cases sh with
  | none => simp [Res.unwrapOption] at hs'
  | some sh =>
    simp only [Res.unwrapOption, Res.ok.injEq] at hs'
    subst hs'
    exact ⟨v, sh, ω, hv, hs, by simp [Ciphertext.seen, encAttr, Function.comp_def]⟩

theorem encrypt_shift {env : Env F G1 G2 Gt} {pk pk' : PublicKey G1 G2 Gt} {E : Gt} {δ : F}
    (hpk : pk' = { pk with eGgAlpha := pk.eGgAlpha + δ • E })
    {text : Str} {lang : PolicyLanguage} {m : Bytes} {t t' u u' : Tape F G1 G2 Gt} (hfr : u.fr = t.fr)
    {ct ct' : Ciphertext G1 G2 Gt}
    (h : encrypt env pk text lang m t = .ok (ct, t')) (h' : encrypt env pk' text lang m u = .ok (ct', u')) :
    Shift E δ (t.fr 0) (u.gt 0 - t.gt 0) ct.seen ct'.seen := by
  subst hpk
  obtain ⟨v, sh, ω, hv, hs, e⟩ := encrypt_seen h
  obtain ⟨v', sh', ω', hv', hs', e'⟩ := encrypt_seen h'
  obtain rfl : v = v' := by simpa using hv.symm.trans hv'
  rw [hfr] at hs' e'
  obtain ⟨rfl, rfl⟩ : sh = sh' ∧ ω = ω' := by simpa using hs.symm.trans hs'
  refine ⟨by rw [e, e'], by rw [e, e'], _, by rw [e], ?_⟩
  rw [e']
  simp only [List.cons.injEq, and_true]
  module

theorem setup_shift {env : Env F G1 G2 Gt} {t t' t'' : Tape F G1 G2 Gt} {a a' : F} {pk pk' : PublicKey G1 G2 Gt}
    {msk msk' : MasterKey F G2} (h : setup env (t.setFr 1 a) = .ok ((pk, msk), t'))
    (h' : setup env (t.setFr 1 a') = .ok ((pk', msk'), t'')) :
    pk' = { pk with eGgAlpha := pk.eGgAlpha + (a' - a) • env.pair (t.g1 0) (t.g2 0) } := by
  simp only [setup, RM.bind_ok, RM.genG1, RM.genG2, RM.genFr, RM.lift_ok_iff, RM.pure_ok, Res.ok.injEq, Prod.mk.injEq,
    Tape.setFr] at h h'
  obtain ⟨_, _, ⟨rfl, rfl⟩, _, _, ⟨rfl, rfl⟩, _, _, ⟨rfl, rfl⟩, _, _, ⟨rfl, rfl⟩, bi, _, ⟨hb, rfl⟩, ⟨rfl, rfl⟩, rfl⟩ := h
  obtain ⟨_, _, ⟨rfl, rfl⟩, _, _, ⟨rfl, rfl⟩, _, _, ⟨rfl, rfl⟩, _, _, ⟨rfl, rfl⟩, bi', _, ⟨hb', rfl⟩, ⟨rfl, rfl⟩, rfl⟩ := h'
  obtain rfl : bi = bi' := by simpa using hb.symm.trans hb'
  simp only [dropS, PublicKey.mk.injEq, true_and]
  refine ⟨by simp, ?_⟩
  simp only [map_smul]
  norm_num
  module

open Classical in
/-- **C77, BSW.** For every computation, every policy and plaintext, all other ciphertexts and all random numbers: the
computation opens the ciphertext for at most `2 · q · |Gt|` of the `q² · |Gt|` choices of the encryption secret, the
session element and the master secret `alpha`. -/
theorem C77_outsider [Fintype F] [Fintype Gt] (env : Env F G1 G2 Gt) (k : Formula F) (t : Tape F G1 G2 Gt)
    (hpair : env.pair (t.g1 0) (t.g2 0) ≠ 0) (job : CpJob F G1 G2 Gt) (others : List (CpJob F G1 G2 Gt))
    (extra : View G1 G2 Gt) :
    (Finset.univ.filter (Opened env k t job others extra)).card ≤ 2 * Fintype.card F * Fintype.card Gt := by
  refine count_two _ _ hpair
    (k.tgt extra.tgt.length + slope k.tgt (extra.tgt.length + 1 + 1) (others.map fun o => o.tape.fr 0))
    (k.tgt (extra.tgt.length + 1)) ?_
  intro s m m' a a' h h'
  simp only [Finset.mem_filter, Finset.mem_univ, true_and] at h h'
  obtain ⟨pk, msk, t', ct, u, cts, hs, he, ho, hk⟩ := h
  obtain ⟨pk', msk', t'', ct', u', cts', hs', he', ho', hk'⟩ := h'
  have hpk := setup_shift hs hs'
  have := opened_pair (δ := a' - a) (c₀ := k.tgt extra.tgt.length) env k (p := extra.join pk.seen)
    (p' := extra.join pk'.seen) (by rw [hpk]; rfl) (by rw [hpk]; rfl)
    (by
      simp only [hpk, PublicKey.seen, View.join, weigh_append, weigh, zero_add]
      module)
    (by simp [View.join, PublicKey.seen])
    (encrypt_shift hpk (by rfl) he he')
    (Shifts.of_forall₂ (sec := fun o => o.tape.fr 0) (fun j c c' ⟨_, h⟩ ⟨_, h'⟩ => by
      simpa using encrypt_shift hpk (by rfl) h h') ho ho')
    (by rw [View.all_join]; exact hk) (by rw [View.all_join]; exact hk')
  simpa [View.join, PublicKey.seen, Tape.setGt, Tape.setFr] using this

end Bsw

namespace Ghw11

/-- The group elements of a public key, `/repo/src/schemes/ghw11/mod.rs:22-28`. -/
def PublicKey.seen (pk : PublicKey G1 G2 Gt) : View G1 G2 Gt := ⟨[pk.g1, pk.g1A], [pk.g2, pk.g2A], [pk.eGgAlpha]⟩

/-- The group elements of a ciphertext, `/repo/src/schemes/ghw11/mod.rs:77-83`. -/
def Ciphertext.seen (ct : Ciphertext G1 Gt) : View G1 G2 Gt :=
  ⟨ct.c1 :: (ct.ciDi.map fun x => [x.2.1, x.2.2]).flatten, [], [ct.c]⟩

/-- The computation `k` finds the session element of the ciphertext made by `job`; see `Bsw.Opened`. -/
def Opened (env : Env F G1 G2 Gt) (k : Formula F) (t : Tape F G1 G2 Gt) (job : CpJob F G1 G2 Gt)
    (others : List (CpJob F G1 G2 Gt)) (extra : View G1 G2 Gt) (x : F × Gt × F) : Prop :=
  ∃ pk msk t' ct u cts, setup env (t.setFr 1 x.2.2) = .ok ((pk, msk), t') ∧
    encrypt env pk job.text job.lang job.plain ((job.tape.setFr 0 x.1).setGt x.2.1) = .ok (ct, u) ∧
    List.Forall₂ (fun o c => ∃ u, encrypt env pk o.text o.lang o.plain o.tape = .ok (c, u)) others cts ∧
    k.eval env (View.all (extra :: pk.seen :: ct.seen :: cts.map Ciphertext.seen)) = x.2.1

theorem encShare_frOnly (env : Env F G1 G2 Gt) (pk : PublicKey G1 G2 Gt) (x : Str × F) : FrOnly (encShare env pk x) :=
  FrOnly.bind FrOnly.genFr fun _ => FrOnly.pure _

theorem encrypt_shift {env : Env F G1 G2 Gt} {pk pk' : PublicKey G1 G2 Gt} {E : Gt} {δ : F}
    (hpk : pk' = { pk with eGgAlpha := pk.eGgAlpha + δ • E })
    {text : Str} {lang : PolicyLanguage} {m : Bytes} {t t' u u' : Tape F G1 G2 Gt} (hfr : u.fr = t.fr)
    {ct ct' : Ciphertext G1 Gt}
    (h : encrypt env pk text lang m t = .ok (ct, t')) (h' : encrypt env pk' text lang m u = .ok (ct', u')) :
    Shift E δ (t.fr 0) (u.gt 0 - t.gt 0) (ct.seen (G2 := G2)) ct'.seen := by
  subst hpk
  simp only [encrypt, RM.bind_ok, RM.genFr, RM.genGt, RM.lift_ok_iff, liftFr_ok_iff, RM.pure_ok, Res.ok.injEq,
    Prod.mk.injEq, encryptSymmetric_ok_iff] at h h'
  obtain ⟨_, _, ⟨rfl, rfl⟩, _, _, ⟨rfl, rfl⟩, v, _, ⟨hv, rfl⟩, sh, _, ⟨ω, hs, rfl⟩, sh', _, ⟨hs', rfl⟩, l, w, hl, d, _,
    ⟨rfl, c, hc, rfl⟩, rfl, rfl⟩ := h
  obtain ⟨_, _, ⟨rfl, rfl⟩, _, _, ⟨rfl, rfl⟩, v', _, ⟨hv', rfl⟩, sh1, _, ⟨ω', hs1, rfl⟩, sh1', _, ⟨hs1', rfl⟩, l', w', hl',
    d', _, ⟨rfl, c', hc', rfl⟩, rfl, rfl⟩ := h'
  obtain rfl : v = v' := by simpa using hv.symm.trans hv'
  rw [hfr] at hs1
  obtain ⟨rfl, rfl⟩ : sh = sh1 ∧ ω = ω' := by simpa using hs.symm.trans hs1
  obtain rfl : sh' = sh1' := by simpa using hs'.symm.trans hs1'
  obtain rfl : l = l' := (FrOnly.mapL (encShare_frOnly env pk) sh' _ _ _ hl).2 _ _ _ (by rfl) hl' |>.1
  refine ⟨by simp [Ciphertext.seen, hfr], rfl, _, rfl, ?_⟩
  simp only [Ciphertext.seen, hfr, List.cons.injEq, and_true]
  module

theorem setup_shift {env : Env F G1 G2 Gt} {t t' t'' : Tape F G1 G2 Gt} {a a' : F} {pk pk' : PublicKey G1 G2 Gt}
    {msk msk' : MasterKey G1 G2 Gt} (h : setup env (t.setFr 1 a) = .ok ((pk, msk), t'))
    (h' : setup env (t.setFr 1 a') = .ok ((pk', msk'), t'')) :
    pk' = { pk with eGgAlpha := pk.eGgAlpha + (a' - a) • env.pair (t.g1 0) (t.g2 0) } := by
  simp only [setup, RM.bind_ok, RM.genG1, RM.genG2, RM.genFr, RM.pure_ok, Res.ok.injEq, Prod.mk.injEq,
    Tape.setFr] at h h'
  obtain ⟨_, _, ⟨rfl, rfl⟩, _, _, ⟨rfl, rfl⟩, _, _, ⟨rfl, rfl⟩, _, _, ⟨rfl, rfl⟩, ⟨rfl, rfl⟩, rfl⟩ := h
  obtain ⟨_, _, ⟨rfl, rfl⟩, _, _, ⟨rfl, rfl⟩, _, _, ⟨rfl, rfl⟩, _, _, ⟨rfl, rfl⟩, ⟨rfl, rfl⟩, rfl⟩ := h'
  simp only [dropS, PublicKey.mk.injEq, true_and]
  refine ⟨by simp, by simp, ?_⟩
  norm_num
  module

open Classical in
/-- **C77, GHW11.** For every computation, every policy and plaintext, all other ciphertexts and all random numbers: the
computation opens the ciphertext for at most `2 · q · |Gt|` of the `q² · |Gt|` choices of the encryption secret, the
session element and the master secret `alpha`. -/
theorem C77_outsider [Fintype F] [Fintype Gt] (env : Env F G1 G2 Gt) (k : Formula F) (t : Tape F G1 G2 Gt)
    (hpair : env.pair (t.g1 0) (t.g2 0) ≠ 0) (job : CpJob F G1 G2 Gt) (others : List (CpJob F G1 G2 Gt))
    (extra : View G1 G2 Gt) :
    (Finset.univ.filter (Opened env k t job others extra)).card ≤ 2 * Fintype.card F * Fintype.card Gt := by
  refine count_two _ _ hpair
    (k.tgt extra.tgt.length + slope k.tgt (extra.tgt.length + 1 + 1) (others.map fun o => o.tape.fr 0))
    (k.tgt (extra.tgt.length + 1)) ?_
  intro s m m' a a' h h'
  simp only [Finset.mem_filter, Finset.mem_univ, true_and] at h h'
  obtain ⟨pk, msk, t', ct, u, cts, hs, he, ho, hk⟩ := h
  obtain ⟨pk', msk', t'', ct', u', cts', hs', he', ho', hk'⟩ := h'
  have hpk := setup_shift hs hs'
  have := opened_pair (δ := a' - a) (c₀ := k.tgt extra.tgt.length) env k (p := extra.join pk.seen)
    (p' := extra.join pk'.seen) (by rw [hpk]; rfl) (by rw [hpk]; rfl)
    (by
      simp only [hpk, PublicKey.seen, View.join, weigh_append, weigh, zero_add]
      module)
    (by simp [View.join, PublicKey.seen])
    (encrypt_shift hpk (by rfl) he he')
    (Shifts.of_forall₂ (sec := fun o => o.tape.fr 0) (fun j c c' ⟨_, h⟩ ⟨_, h'⟩ => by
      simpa using encrypt_shift hpk (by rfl) h h') ho ho')
    (by rw [View.all_join]; exact hk) (by rw [View.all_join]; exact hk')
  simpa [View.join, PublicKey.seen, Tape.setGt, Tape.setFr] using this

end Ghw11

namespace Lsw

/-- The group elements of a public key, `/repo/src/schemes/lsw/mod.rs:44-51`. -/
def PublicKey.seen (pk : PublicKey G1 G2 Gt) : View G1 G2 Gt :=
  ⟨[pk.g1, pk.g1B, pk.g1B2, pk.hB], [pk.g2], [pk.eGgAlpha]⟩

/-- The group elements of a ciphertext, `/repo/src/schemes/lsw/mod.rs:78-83`. -/
def Ciphertext.seen (ct : Ciphertext G1 G2 Gt) : View G1 G2 Gt :=
  ⟨(ct.ej.map fun x => [x.e1, x.e2, x.e3]).flatten, [ct.e2], [ct.e1]⟩

/-- The computation `k` finds the session element of the ciphertext made by `job`; see `Bsw.Opened`. -/
def Opened (env : Env F G1 G2 Gt) (k : Formula F) (t : Tape F G1 G2 Gt) (job : KpJob F G1 G2 Gt)
    (others : List (KpJob F G1 G2 Gt)) (extra : View G1 G2 Gt) (x : F × Gt × F) : Prop :=
  ∃ pk msk t' ct u cts, setup env (t.setFr 0 x.2.2) = .ok ((pk, msk), t') ∧
    encrypt env pk job.attrs job.plain ((job.tape.setFr 0 x.1).setGt x.2.1) = .ok (ct, u) ∧
    List.Forall₂ (fun o c => ∃ u, encrypt env pk o.attrs o.plain o.tape = .ok (c, u)) others cts ∧
    k.eval env (View.all (extra :: pk.seen :: ct.seen :: cts.map Ciphertext.seen)) = x.2.1

theorem sxLoop_frOnly : ∀ (n i : ℕ) (sx : List F), FrOnly (sxLoop n i sx : RM F G1 G2 Gt (List F))
  | 0, _, _ => FrOnly.pure _
  | n + 1, i, sx => FrOnly.bind FrOnly.genFr fun r => FrOnly.bind (FrOnly.lift _) fun _ => FrOnly.bind (FrOnly.lift _)
      fun _ => sxLoop_frOnly n (i + 1) _

theorem encrypt_shift {env : Env F G1 G2 Gt} {pk pk' : PublicKey G1 G2 Gt} {E : Gt} {δ : F}
    (hpk : pk' = { pk with eGgAlpha := pk.eGgAlpha + δ • E })
    {attrs : List Str} {m : Bytes} {t t' u u' : Tape F G1 G2 Gt} (hfr : u.fr = t.fr)
    {ct ct' : Ciphertext G1 G2 Gt}
    (h : encrypt env pk attrs m t = .ok (ct, t')) (h' : encrypt env pk' attrs m u = .ok (ct', u')) :
    Shift E δ (t.fr 0) (u.gt 0 - t.gt 0) ct.seen ct'.seen := by
  subst hpk
  simp only [encrypt] at h h'
  split at h
  · simp at h
  rename_i hne
  rw [if_neg hne] at h'
  simp only [RM.bind_ok, RM.genFr, RM.genGt, RM.lift_ok_iff, liftFr_ok_iff, RM.pure_ok, Res.ok.injEq,
    Prod.mk.injEq, encryptSymmetric_ok_iff] at h h'
  obtain ⟨_, _, ⟨rfl, rfl⟩, sx, w, hsx, ej, _, ⟨hej, rfl⟩, _, _, ⟨rfl, rfl⟩, d, _, ⟨rfl, c, hc, rfl⟩, rfl, rfl⟩ := h
  obtain ⟨_, _, ⟨rfl, rfl⟩, sx', w', hsx', ej', _, ⟨hej', rfl⟩, _, _, ⟨rfl, rfl⟩, d', _, ⟨rfl, c', hc', rfl⟩, rfl, rfl⟩ := h'
  rw [hfr] at hsx' hej'
  obtain ⟨g1, hw⟩ := sxLoop_frOnly _ _ _ _ _ _ hsx
  obtain ⟨g2, -⟩ := sxLoop_frOnly _ _ _ _ _ _ hsx'
  obtain ⟨rfl, -⟩ := hw _ _ _ (by rfl) hsx'
  obtain rfl : ej = ej' := by simpa using hej.symm.trans hej'
  refine ⟨rfl, by simp [Ciphertext.seen, hfr], _, rfl, ?_⟩
  rw [g1, g2]
  simp only [Ciphertext.seen, hfr, List.cons.injEq, and_true]
  module

theorem setup_shift {env : Env F G1 G2 Gt} {t t' t'' : Tape F G1 G2 Gt} {a a' : F} {pk pk' : PublicKey G1 G2 Gt}
    {msk msk' : MasterKey F G1 G2} (h : setup env (t.setFr 0 a) = .ok ((pk, msk), t'))
    (h' : setup env (t.setFr 0 a') = .ok ((pk', msk'), t'')) :
    pk' = { pk with eGgAlpha := pk.eGgAlpha + (a' - a) • t.fr 1 • env.pair (t.g1 0) (t.g2 0) } := by
  simp only [setup, RM.bind_ok, RM.genG1, RM.genG2, RM.genFr, RM.pure_ok, Res.ok.injEq, Prod.mk.injEq,
    Tape.setFr] at h h'
  obtain ⟨_, _, ⟨rfl, rfl⟩, _, _, ⟨rfl, rfl⟩, _, _, ⟨rfl, rfl⟩, _, _, ⟨rfl, rfl⟩, _, _, ⟨rfl, rfl⟩, _, _, ⟨rfl, rfl⟩,
    _, _, ⟨rfl, rfl⟩, ⟨rfl, rfl⟩, rfl⟩ := h
  obtain ⟨_, _, ⟨rfl, rfl⟩, _, _, ⟨rfl, rfl⟩, _, _, ⟨rfl, rfl⟩, _, _, ⟨rfl, rfl⟩, _, _, ⟨rfl, rfl⟩, _, _, ⟨rfl, rfl⟩,
    _, _, ⟨rfl, rfl⟩, ⟨rfl, rfl⟩, rfl⟩ := h'
  simp only [dropS, PublicKey.mk.injEq, true_and]
  refine ⟨by simp, by simp, by simp, ?_⟩
  norm_num
  module

open Classical in
/-- **C77, LSW.** For every computation, every attribute list and plaintext, all other ciphertexts and all random numbers: the
computation opens the ciphertext for at most `2 · q · |Gt|` of the `q² · |Gt|` choices of the encryption secret, the
session element and the master secret `alpha1`. -/
theorem C77_outsider [Fintype F] [Fintype Gt] (env : Env F G1 G2 Gt) (k : Formula F) (t : Tape F G1 G2 Gt)
    (hpair : env.pair (t.g1 0) (t.g2 0) ≠ 0) (hα : t.fr 1 ≠ 0)
    (job : KpJob F G1 G2 Gt) (others : List (KpJob F G1 G2 Gt))
    (extra : View G1 G2 Gt) :
    (Finset.univ.filter (Opened env k t job others extra)).card ≤ 2 * Fintype.card F * Fintype.card Gt := by
  refine count_two _ _ (smul_ne_zero hα hpair)
    (k.tgt extra.tgt.length + slope k.tgt (extra.tgt.length + 1 + 1) (others.map fun o => o.tape.fr 0))
    (k.tgt (extra.tgt.length + 1)) ?_
  intro s m m' a a' h h'
  simp only [Finset.mem_filter, Finset.mem_univ, true_and] at h h'
  obtain ⟨pk, msk, t', ct, u, cts, hs, he, ho, hk⟩ := h
  obtain ⟨pk', msk', t'', ct', u', cts', hs', he', ho', hk'⟩ := h'
  have hpk := setup_shift hs hs'
  have := opened_pair (δ := a' - a) (c₀ := k.tgt extra.tgt.length) env k (p := extra.join pk.seen)
    (p' := extra.join pk'.seen) (by rw [hpk]; rfl) (by rw [hpk]; rfl)
    (by
      simp only [hpk, PublicKey.seen, View.join, weigh_append, weigh, zero_add]
      module)
    (by simp [View.join, PublicKey.seen])
    (encrypt_shift hpk (by rfl) he he')
    (Shifts.of_forall₂ (sec := fun o => o.tape.fr 0) (fun j c c' ⟨_, h⟩ ⟨_, h'⟩ => by
      simpa using encrypt_shift hpk (by rfl) h h') ho ho')
    (by rw [View.all_join]; exact hk) (by rw [View.all_join]; exact hk')
  simpa [View.join, PublicKey.seen, Tape.setGt, Tape.setFr] using this

end Lsw

namespace Ac17

/-- The group elements of a public key, `/repo/src/schemes/ac17/mod.rs:62-66`. -/
def PublicKey.seen (pk : PublicKey G1 G2 Gt) : View G1 G2 Gt := ⟨[pk.g], pk.hA, pk.eGhKa⟩

/-- The group elements of a ciphertext, `/repo/src/schemes/ac17/mod.rs:84-89`. -/
def Ciphertext.seen (ct : Ciphertext G1 G2 Gt) : View G1 G2 Gt := ⟨(ct.c.map (·.2)).flatten, ct.c0, [ct.cP]⟩

/-- The public keys differ in the two elements of `Gt`, both by `δ • E`. -/
def Shifted (E : Gt) (δ : F) (pk pk' : PublicKey G1 G2 Gt) : Prop :=
  pk.g = pk'.g ∧ pk.hA = pk'.hA ∧ ∃ e0 e1, pk.eGhKa = [e0, e1] ∧ pk'.eGhKa = [e0 + δ • E, e1 + δ • E]

theorem setup_shift {env : Env F G1 G2 Gt} {t t' t'' : Tape F G1 G2 Gt} {a a' : F} {pk pk' : PublicKey G1 G2 Gt}
    {msk msk' : MasterKey F G1 G2} (h : setup env (t.setFr 6 a) = .ok ((pk, msk), t'))
    (h' : setup env (t.setFr 6 a') = .ok ((pk', msk'), t'')) :
    Shifted (env.pair (t.g1 0) (t.g2 0)) (a' - a) pk pk' := by
  simp only [setup, RM.bind_ok, RM.genG1, RM.genG2, RM.genFr, RM.pure_ok, Res.ok.injEq, Prod.mk.injEq, Tape.setFr] at h h'
  obtain ⟨_, _, ⟨rfl, rfl⟩, _, _, ⟨rfl, rfl⟩, _, _, ⟨rfl, rfl⟩, _, _, ⟨rfl, rfl⟩, _, _, ⟨rfl, rfl⟩, _, _, ⟨rfl, rfl⟩,
    _, _, ⟨rfl, rfl⟩, _, _, ⟨rfl, rfl⟩, _, _, ⟨rfl, rfl⟩, ⟨rfl, rfl⟩, rfl⟩ := h
  obtain ⟨_, _, ⟨rfl, rfl⟩, _, _, ⟨rfl, rfl⟩, _, _, ⟨rfl, rfl⟩, _, _, ⟨rfl, rfl⟩, _, _, ⟨rfl, rfl⟩, _, _, ⟨rfl, rfl⟩,
    _, _, ⟨rfl, rfl⟩, _, _, ⟨rfl, rfl⟩, _, _, ⟨rfl, rfl⟩, ⟨rfl, rfl⟩, rfl⟩ := h'
  refine ⟨rfl, by simp [dropS], _, _, rfl, ?_⟩
  simp only [dropS, List.cons.injEq, and_true]
  norm_num
  constructor <;> module

theorem cPrime_of {pk : PublicKey G1 G2 Gt} {e0 e1 : Gt} (h : pk.eGhKa = [e0, e1]) (s0 s1 : F) :
    cPrime pk s0 s1 = .ok (0 + s0 • e0 + s1 • e1) := by
  simp only [cPrime, h]; rfl

theorem cpEncrypt_shift {env : Env F G1 G2 Gt} {pk pk' : PublicKey G1 G2 Gt} {E : Gt} {δ : F} (hpk : Shifted E δ pk pk')
    {text : Str} {lang : PolicyLanguage} {m : Bytes} {t t' u u' : Tape F G1 G2 Gt} (hfr : u.fr = t.fr)
    {ct ct' : CpCiphertext G1 G2 Gt}
    (h : cpEncrypt env pk text m lang t = .ok (ct, t')) (h' : cpEncrypt env pk' text m lang u = .ok (ct', u')) :
    Shift E δ (t.fr 0 + t.fr 1) (u.gt 0 - t.gt 0) ct.ct.seen ct'.ct.seen := by
  obtain ⟨hg, hh, e0, e1, he, he'⟩ := hpk
  simp only [cpEncrypt, RM.bind_ok, RM.genFr, RM.genGt, RM.lift_ok_iff, RM.pure_ok, Res.ok.injEq,
    Prod.mk.injEq, encryptSymmetric_ok_iff] at h h'
  obtain ⟨v, _, ⟨hv, rfl⟩, msp, _, ⟨hm, rfl⟩, r0, _, ⟨hr, rfl⟩, _, _, ⟨rfl, rfl⟩, _, _, ⟨rfl, rfl⟩,
    c0, _, ⟨hc0, rfl⟩, cp, _, ⟨hcp, rfl⟩, _, _, ⟨rfl, rfl⟩, d, _, ⟨rfl, c, hc, rfl⟩, rfl, rfl⟩ := h
  obtain ⟨v', _, ⟨hv', rfl⟩, msp', _, ⟨hm', rfl⟩, r0', _, ⟨hr', rfl⟩, _, _, ⟨rfl, rfl⟩, _, _, ⟨rfl, rfl⟩,
    c0', _, ⟨hc0', rfl⟩, cp', _, ⟨hcp', rfl⟩, _, _, ⟨rfl, rfl⟩, d', _, ⟨rfl, c', hc', rfl⟩, rfl, rfl⟩ := h'
  obtain rfl : v = v' := by simpa using hv.symm.trans hv'
  obtain rfl : msp = msp' := by simpa using hm.symm.trans hm'
  obtain rfl : r0 = r0' := by simpa using hr.symm.trans hr'
  rw [hfr, c0Vec, ← hh, ← c0Vec] at hc0'
  obtain rfl : c0 = c0' := by simpa using hc0.symm.trans hc0'
  rw [cPrime_of he, Res.ok.injEq] at hcp
  rw [cPrime_of he', Res.ok.injEq] at hcp'
  refine ⟨by simp [Ciphertext.seen, hfr, hg], by simp [Ciphertext.seen], _, rfl, ?_⟩
  simp only [Ciphertext.seen, ← hcp, ← hcp', hfr, List.cons.injEq, and_true, dropS, zero_add]
  module

theorem kpEncrypt_shift {env : Env F G1 G2 Gt} {pk pk' : PublicKey G1 G2 Gt} {E : Gt} {δ : F} (hpk : Shifted E δ pk pk')
    {attrs : List Str} {m : Bytes} {t t' u u' : Tape F G1 G2 Gt} (hfr : u.fr = t.fr)
    {ct ct' : KpCiphertext G1 G2 Gt}
    (h : kpEncrypt env pk attrs m t = .ok (ct, t')) (h' : kpEncrypt env pk' attrs m u = .ok (ct', u')) :
    Shift E δ (t.fr 0 + t.fr 1) (u.gt 0 - t.gt 0) ct.ct.seen ct'.ct.seen := by
  obtain ⟨hg, hh, e0, e1, he, he'⟩ := hpk
  simp only [kpEncrypt, RM.bind_ok, RM.genFr, RM.genGt, RM.lift_ok_iff, RM.pure_ok, Res.ok.injEq,
    Prod.mk.injEq, encryptSymmetric_ok_iff] at h h'
  obtain ⟨_, _, ⟨rfl, rfl⟩, _, _, ⟨rfl, rfl⟩,
    c0, _, ⟨hc0, rfl⟩, cp, _, ⟨hcp, rfl⟩, _, _, ⟨rfl, rfl⟩, d, _, ⟨rfl, c, hc, rfl⟩, rfl, rfl⟩ := h
  obtain ⟨_, _, ⟨rfl, rfl⟩, _, _, ⟨rfl, rfl⟩,
    c0', _, ⟨hc0', rfl⟩, cp', _, ⟨hcp', rfl⟩, _, _, ⟨rfl, rfl⟩, d', _, ⟨rfl, c', hc', rfl⟩, rfl, rfl⟩ := h'
  rw [hfr, c0Vec, ← hh, ← c0Vec] at hc0'
  obtain rfl : c0 = c0' := by simpa using hc0.symm.trans hc0'
  rw [cPrime_of he, Res.ok.injEq] at hcp
  rw [cPrime_of he', Res.ok.injEq] at hcp'
  refine ⟨by simp [Ciphertext.seen, hfr, hg], by simp [Ciphertext.seen], _, rfl, ?_⟩
  simp only [Ciphertext.seen, ← hcp, ← hcp', hfr, List.cons.injEq, and_true, dropS, zero_add]
  module

/-- The computation `k` finds the session element of the ciphertext made by `job`; see `Bsw.Opened`. The first of the two
random numbers of the encryption and the last of the random numbers `k` of the setup are varied. -/
def CpOpened (env : Env F G1 G2 Gt) (k : Formula F) (t : Tape F G1 G2 Gt) (job : CpJob F G1 G2 Gt)
    (others : List (CpJob F G1 G2 Gt)) (extra : View G1 G2 Gt) (x : F × Gt × F) : Prop :=
  ∃ pk msk t' ct u cts, setup env (t.setFr 6 x.2.2) = .ok ((pk, msk), t') ∧
    cpEncrypt env pk job.text job.plain job.lang ((job.tape.setFr 0 x.1).setGt x.2.1) = .ok (ct, u) ∧
    List.Forall₂ (fun o c => ∃ u, cpEncrypt env pk o.text o.plain o.lang o.tape = .ok (c, u)) others cts ∧
    k.eval env (View.all (extra :: pk.seen :: ct.ct.seen :: cts.map fun c => c.ct.seen)) = x.2.1

open Classical in
/-- **C77, AC17 Cp-ABE.** For every computation, every policy and plaintext, all other ciphertexts and all random numbers:
the computation opens the ciphertext for at most `2 · q · |Gt|` of the `q² · |Gt|` choices of the first random number of
the encryption, the session element and the last random number of the setup. -/
theorem C77_cp_outsider [Fintype F] [Fintype Gt] (env : Env F G1 G2 Gt) (k : Formula F) (t : Tape F G1 G2 Gt)
    (hpair : env.pair (t.g1 0) (t.g2 0) ≠ 0) (job : CpJob F G1 G2 Gt) (others : List (CpJob F G1 G2 Gt))
    (extra : View G1 G2 Gt) :
    (Finset.univ.filter (CpOpened env k t job others extra)).card ≤ 2 * Fintype.card F * Fintype.card Gt := by
  refine count_two _ _ hpair
    (k.tgt extra.tgt.length + k.tgt (extra.tgt.length + 1) +
      slope k.tgt (extra.tgt.length + 2 + 1) (others.map fun o => o.tape.fr 0 + o.tape.fr 1) +
      k.tgt (extra.tgt.length + 2) * job.tape.fr 1)
    (k.tgt (extra.tgt.length + 2)) ?_
  intro s m m' a a' h h'
  simp only [Finset.mem_filter, Finset.mem_univ, true_and] at h h'
  obtain ⟨pk, msk, t', ct, u, cts, hs, he, ho, hk⟩ := h
  obtain ⟨pk', msk', t'', ct', u', cts', hs', he', ho', hk'⟩ := h'
  have hpk := setup_shift hs hs'
  obtain ⟨hg, hh, e0, e1, q, q'⟩ := id hpk
  have := opened_pair (δ := a' - a) (c₀ := k.tgt extra.tgt.length + k.tgt (extra.tgt.length + 1)) env k
    (p := extra.join pk.seen) (p' := extra.join pk'.seen) (by simp [View.join, PublicKey.seen, hg])
    (by simp [View.join, PublicKey.seen, hh])
    (by
      simp only [PublicKey.seen, View.join, weigh_append, weigh, zero_add, q, q']
      module)
    (by simp [View.join, PublicKey.seen, q, q'])
    (cpEncrypt_shift hpk (by rfl) he he')
    (Shifts.of_forall₂ (sec := fun o => o.tape.fr 0 + o.tape.fr 1) (fun j c c' ⟨_, h⟩ ⟨_, h'⟩ => by
      simpa using cpEncrypt_shift hpk (by rfl) h h') ho ho')
    (by rw [View.all_join]; exact hk) (by rw [View.all_join]; exact hk')
  simp only [View.join, PublicKey.seen, Tape.setGt, Tape.setFr, List.length_append, q, List.length_cons,
    List.length_nil, if_true, zero_add] at this
  rw [if_neg (by norm_num)] at this
  rw [← this]
  module

/-- The computation `k` finds the session element of the ciphertext made by `job`; see `Bsw.Opened`. The first of the two
random numbers of the encryption and the last of the random numbers `k` of the setup are varied. -/
def KpOpened (env : Env F G1 G2 Gt) (k : Formula F) (t : Tape F G1 G2 Gt) (job : KpJob F G1 G2 Gt)
    (others : List (KpJob F G1 G2 Gt)) (extra : View G1 G2 Gt) (x : F × Gt × F) : Prop :=
  ∃ pk msk t' ct u cts, setup env (t.setFr 6 x.2.2) = .ok ((pk, msk), t') ∧
    kpEncrypt env pk job.attrs job.plain ((job.tape.setFr 0 x.1).setGt x.2.1) = .ok (ct, u) ∧
    List.Forall₂ (fun o c => ∃ u, kpEncrypt env pk o.attrs o.plain o.tape = .ok (c, u)) others cts ∧
    k.eval env (View.all (extra :: pk.seen :: ct.ct.seen :: cts.map fun c => c.ct.seen)) = x.2.1

open Classical in
/-- **C77, AC17 Kp-ABE.** For every computation, every attribute list and plaintext, all other ciphertexts and all random numbers:
the computation opens the ciphertext for at most `2 · q · |Gt|` of the `q² · |Gt|` choices of the first random number of
the encryption, the session element and the last random number of the setup. -/
theorem C77_kp_outsider [Fintype F] [Fintype Gt] (env : Env F G1 G2 Gt) (k : Formula F) (t : Tape F G1 G2 Gt)
    (hpair : env.pair (t.g1 0) (t.g2 0) ≠ 0) (job : KpJob F G1 G2 Gt) (others : List (KpJob F G1 G2 Gt))
    (extra : View G1 G2 Gt) :
    (Finset.univ.filter (KpOpened env k t job others extra)).card ≤ 2 * Fintype.card F * Fintype.card Gt := by
  refine count_two _ _ hpair
    (k.tgt extra.tgt.length + k.tgt (extra.tgt.length + 1) +
      slope k.tgt (extra.tgt.length + 2 + 1) (others.map fun o => o.tape.fr 0 + o.tape.fr 1) +
      k.tgt (extra.tgt.length + 2) * job.tape.fr 1)
    (k.tgt (extra.tgt.length + 2)) ?_
  intro s m m' a a' h h'
  simp only [Finset.mem_filter, Finset.mem_univ, true_and] at h h'
  obtain ⟨pk, msk, t', ct, u, cts, hs, he, ho, hk⟩ := h
  obtain ⟨pk', msk', t'', ct', u', cts', hs', he', ho', hk'⟩ := h'
  have hpk := setup_shift hs hs'
  obtain ⟨hg, hh, e0, e1, q, q'⟩ := id hpk
  have := opened_pair (δ := a' - a) (c₀ := k.tgt extra.tgt.length + k.tgt (extra.tgt.length + 1)) env k
    (p := extra.join pk.seen) (p' := extra.join pk'.seen) (by simp [View.join, PublicKey.seen, hg])
    (by simp [View.join, PublicKey.seen, hh])
    (by
      simp only [PublicKey.seen, View.join, weigh_append, weigh, zero_add, q, q']
      module)
    (by simp [View.join, PublicKey.seen, q, q'])
    (kpEncrypt_shift hpk (by rfl) he he')
    (Shifts.of_forall₂ (sec := fun o => o.tape.fr 0 + o.tape.fr 1) (fun j c c' ⟨_, h⟩ ⟨_, h'⟩ => by
      simpa using kpEncrypt_shift hpk (by rfl) h h') ho ho')
    (by rw [View.all_join]; exact hk) (by rw [View.all_join]; exact hk')
  simp only [View.join, PublicKey.seen, Tape.setGt, Tape.setFr, List.length_append, q, List.length_cons,
    List.length_nil, if_true, zero_add] at this
  rw [if_neg (by norm_num)] at this
  rw [← this]
  module

end Ac17

namespace Yct14

/-- The group elements of a list of attributes, `/repo/src/schemes/yct14/mod.rs:51-56`. -/
def attrElems (l : List (Attribute F Gt)) : List Gt :=
  l.filterMap fun a => match a.node with
    | some (.pub g) => some g
    | _ => none

/-- The group elements of a public key, `/repo/src/schemes/yct14/mod.rs:142-145`. -/
def PublicKey.seen (pk : PublicKey F Gt) : View G1 G2 Gt := ⟨[], [], pk.g :: attrElems pk.attributes⟩

/-- The group elements of a ciphertext, `/repo/src/schemes/yct14/mod.rs:199-202`. -/
def Ciphertext.seen (ct : Ciphertext F Gt) : View G1 G2 Gt := ⟨[], [], attrElems ct.attributes⟩

/-- The computation `k` finds the session element `s • (r • g)` of the ciphertext made by `job` with the random number
`r` under a public key with the master secret `s`. The session elements of the other ciphertexts are known. -/
def Opened (env : Env F G1 G2 Gt) (k : Formula F) (univ : List Str) (t : Tape F G1 G2 Gt) (job : KpJob F G1 G2 Gt)
    (others : List (KpJob F G1 G2 Gt)) (extra : View G1 G2 Gt) (x : F × F) : Prop :=
  ∃ pk msk t' ct u cts, setup univ (t.setFr 0 x.2) = .ok ((pk, msk), t') ∧
    encrypt env pk job.attrs job.plain (job.tape.setFr 0 x.1) = .ok (ct, u) ∧
    List.Forall₂ (fun o c => ∃ u, encrypt env pk o.attrs o.plain o.tape = .ok (c, u)) others cts ∧
    k.eval env (View.all (extra :: ⟨[], [], others.map fun o => o.tape.fr 0 • pk.g⟩ :: pk.seen :: ct.seen ::
      cts.map Ciphertext.seen)) = x.1 • pk.g

theorem setup_shift {t t' t'' : Tape F G1 G2 Gt} {a a' : F} {attrs : List Str} {pk pk' : PublicKey F Gt}
    {msk msk' : MasterKey F Gt} (h : setup attrs (t.setFr 0 a) = .ok ((pk, msk), t'))
    (h' : setup attrs (t.setFr 0 a') = .ok ((pk', msk'), t'')) :
    pk.g = a • t.gt 0 ∧ pk'.g = a' • t.gt 0 ∧ pk.attributes = pk'.attributes := by
  simp only [setup, RM.bind_ok, RM.genGt, RM.genFr, RM.pure_ok, Res.ok.injEq, Prod.mk.injEq, Tape.setFr] at h h'
  obtain ⟨_, _, ⟨rfl, rfl⟩, _, _, ⟨rfl, rfl⟩, l, _, hl, ⟨rfl, rfl⟩, rfl⟩ := h
  obtain ⟨_, _, ⟨rfl, rfl⟩, _, _, ⟨rfl, rfl⟩, l', _, hl', ⟨rfl, rfl⟩, rfl⟩ := h'
  have : dropS 1 (fun n => if n = 0 then a else t.fr n) = dropS 1 (fun n => if n = 0 then a' else t.fr n) := by
    funext n; simp [dropS]
  simp only [this] at hl
  obtain ⟨rfl, -⟩ : l = l' ∧ _ := by simpa using hl.symm.trans hl'
  exact ⟨rfl, rfl, rfl⟩

theorem encrypt_same {env : Env F G1 G2 Gt} {pk pk' : PublicKey F Gt} (hpk : pk.attributes = pk'.attributes)
    {attrs : List Str} {m : Bytes} {t t' u' : Tape F G1 G2 Gt} {ct ct' : Ciphertext F Gt}
    (h : encrypt env pk attrs m t = .ok (ct, t')) (h' : encrypt env pk' attrs m t = .ok (ct', u')) :
    ct.attributes = ct'.attributes := by
  simp only [encrypt] at h h'
  split at h
  · simp at h
  rename_i hne
  rw [if_neg hne] at h'
  split at h
  · simp at h
  rename_i hne
  rw [if_neg hne] at h'
  simp only [RM.bind_ok, RM.genFr, RM.lift_ok_iff, RM.pure_ok, Res.ok.injEq,
    Prod.mk.injEq, encryptSymmetric_ok_iff] at h h'
  obtain ⟨_, _, ⟨rfl, rfl⟩, l, _, ⟨hl, rfl⟩, d, _, ⟨rfl, c, hc, rfl⟩, rfl, rfl⟩ := h
  obtain ⟨_, _, ⟨rfl, rfl⟩, l', _, ⟨hl', rfl⟩, d', _, ⟨rfl, c', hc', rfl⟩, rfl, rfl⟩ := h'
  have : publicFrom pk (t.fr 0) = publicFrom pk' (t.fr 0) := by funext x; simp [publicFrom, hpk]
  rw [this] at hl
  simpa using hl.symm.trans hl'

theorem weigh_smul (f : ℕ → F) (g g' : Gt) : ∀ (n : ℕ) (l : List F),
    weigh f n (l.map fun x => x • g') - weigh f n (l.map fun x => x • g) = slope f n l • (g' - g)
  | _, [] => by simp [weigh, slope]
  | n, x :: l => by
    have := weigh_smul f g g' (n + 1) l
    rw [sub_eq_iff_eq_add] at this
    simp only [List.map_cons, weigh, slope, this]
    module

theorem cts_same {env : Env F G1 G2 Gt} {pk pk' : PublicKey F Gt} (hpk : pk.attributes = pk'.attributes) :
    ∀ {os : List (KpJob F G1 G2 Gt)} {cs cs' : List (Ciphertext F Gt)},
      List.Forall₂ (fun o c => ∃ u, encrypt env pk o.attrs o.plain o.tape = .ok (c, u)) os cs →
      List.Forall₂ (fun o c => ∃ u, encrypt env pk' o.attrs o.plain o.tape = .ok (c, u)) os cs' →
      (cs.map Ciphertext.seen : List (View G1 G2 Gt)) = cs'.map Ciphertext.seen
  | _, _, _, .nil, .nil => rfl
  | _, _, _, .cons ⟨_, a⟩ l, .cons ⟨_, b⟩ m => by
    rw [List.map_cons, List.map_cons, cts_same hpk l m, Ciphertext.seen, Ciphertext.seen, encrypt_same hpk a b]

open Classical in
/-- **C77, YCT14.** For every computation, every attribute list and plaintext, all other ciphertexts and all other random
numbers: the computation gives the session element for at most `2 · q` of the `q²` choices of the random number of the
encryption and the master secret. -/
theorem C77_outsider [Fintype F] (env : Env F G1 G2 Gt) (k : Formula F) (univ : List Str) (t : Tape F G1 G2 Gt)
    (hg : t.gt 0 ≠ 0) (job : KpJob F G1 G2 Gt) (others : List (KpJob F G1 G2 Gt)) (extra : View G1 G2 Gt) :
    (Finset.univ.filter (Opened env k univ t job others extra)).card ≤ 2 * Fintype.card F := by
  refine count_one _ _ hg (slope k.tgt extra.tgt.length (others.map fun o => o.tape.fr 0) +
    k.tgt (extra.tgt.length + others.length)) ?_
  intro r s s' h h'
  simp only [Finset.mem_filter, Finset.mem_univ, true_and] at h h'
  obtain ⟨pk, msk, t', ct, u, cts, hs, he, ho, hk⟩ := h
  obtain ⟨pk', msk', t'', ct', u', cts', hs', he', ho', hk'⟩ := h'
  obtain ⟨e1, e2, e3⟩ := setup_shift hs hs'
  have hct := encrypt_same e3 he he'
  have hcts := cts_same (G1 := G1) (G2 := G2) e3 ho ho'
  have e := eval_sub env k (v := View.all (extra :: ⟨[], [], others.map fun o => o.tape.fr 0 • pk'.g⟩ :: pk'.seen :: ct'.seen ::
      cts'.map Ciphertext.seen)) (w := View.all (extra :: ⟨[], [], others.map fun o => o.tape.fr 0 • pk.g⟩ :: pk.seen :: ct.seen ::
      cts.map Ciphertext.seen)) (by simp [View.all, View.join, hcts, PublicKey.seen, Ciphertext.seen])
      (by simp [View.all, View.join, hcts, PublicKey.seen, Ciphertext.seen])
  rw [hk, hk', hcts] at e
  have w := weigh_smul k.tgt pk.g pk'.g extra.tgt.length (others.map fun o => o.tape.fr 0)
  simp only [List.map_map, Function.comp_def] at w
  rw [sub_eq_iff_eq_add] at w
  simp only [View.all, View.join, PublicKey.seen, Ciphertext.seen, hct, e3, weigh_append, weigh, List.length_map, zero_add,
    List.cons_append, List.append_assoc, w] at e
  rw [e1, e2] at e
  have e4 := sub_eq_zero.2 e
  have : ∀ a b : Gt, a = -b → b = 0 → a = 0 := by rintro a b rfl rfl; simp
  refine this _ _ ?_ e4
  module

end Yct14
end Rabe
