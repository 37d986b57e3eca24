import Verif.Instance.Bn
import Verif.Instance.Case
import Verif.Props.FreshUsed
import Verif.Props.FreshUsedKp
import Verif.Props.FreshUsedDnf
import Verif.Props.FreshUsedAc17

/-!
# C70: cases that meet the hypotheses of the theorems in `Fresh`, `FreshUsed`, `FreshUsedKp`, `FreshUsedDnf`, `FreshUsedAc17`

Each case runs setup, key generation and encryption on a tape of pairwise different values, tests the hypotheses on the
generators, and tests that a tape that differs in the last consumed value gives another output (or, for the scalar that LSW
encryption drops, the same output).
-/

namespace Rabe

/-- A tape of pairwise different scalars. -/
def countTape : Tape Fr Fr Fr Fr where
  fr n := (n : Fr) + 2
  g1 n := (n : Fr) + 3
  g2 n := (n : Fr) + 5
  gt n := (n : Fr) + 7
  byte n := n.toUInt8

/-- The tape with another scalar at position `n`. -/
def Tape.bump (t : Tape Fr Fr Fr Fr) (n : ℕ) : Tape Fr Fr Fr Fr := { t with fr := fun k => if k = n then 99 else t.fr k }

/-- The policy text of the cases. -/
def caseText : Str := chars% "(\"A\" and \"B\") or \"C\""

/-- The policy of the cases. -/
def casePol : Pol := .gate .or [.gate .and [.leaf ['A'] 3, .leaf ['B'] 11], .leaf ['C'] 19]

/-- The text denotes the policy, which meets the conditions of the theorems on policies. -/
example : Denotes caseText .human casePol ∧ casePol.Wide ∧ casePol.Fits ∧ casePol.Binary ∧ draws casePol = 1 ∧
    casePol.leaves.length = 3 ∧ casePol.andCount = 1 :=
  ⟨show parse _ _ = _ from rfl, by simp [Pol.Wide, casePol], by simp [Pol.Fits, casePol], by simp [Pol.Binary, casePol],
    by with_unfolding_all rfl, by simp [casePol], by simp [casePol, Pol.andCount, Pol.andCountL]⟩

/-- BSW: `C70_setup_used`, `C70_keygen_used`, `C70_delegate_used`, `C70_encrypt_used`. -/
example : (Bsw.setup toyEnv countTape).check (fun ((pk, msk), t) =>
    decide (countTape.g2 0 ≠ 0 ∧ pk.g1 ≠ 0 ∧ pk.g2 ≠ 0 ∧ pk.f ≠ 0) &&
    (Bsw.keygen toyEnv pk msk [['A'], ['B']] t).check (fun (sk, t) =>
      match sk with
      | none => false
      | some sk => isSubset [['B']] (sk.dJ.map (·.string)) &&
        (Bsw.delegate toyEnv pk sk [['B']] t).check (fun (a, _) =>
          (Bsw.delegate toyEnv pk sk [['B']] (t.bump 1)).check fun (b, _) =>
            decide (a.map (·.dJ.map (·.g1)) ≠ b.map (·.dJ.map (·.g1))))) &&
    (Bsw.encrypt toyEnv pk caseText .human [1, 2] t).check (fun (ct, _) =>
      (Bsw.encrypt toyEnv pk caseText .human [1, 2] (t.bump 1)).check fun (ct', _) =>
        decide (ct.cY.map (·.g1) ≠ ct'.cY.map (·.g1)))) = true := by decide +kernel

/-- GHW11: `C70_setup_used`, `C70_keygen_used`, `C70_tkgen_used`, `C70_encrypt_used`. -/
example : (Ghw11.setup toyEnv countTape).check (fun ((pk, msk), t) =>
    decide (countTape.g1 0 ≠ 0 ∧ countTape.g2 0 ≠ 0 ∧ pk.g1 ≠ 0 ∧ pk.g2 ≠ 0 ∧ pk.g1A ≠ 0) &&
    (Ghw11.keygen toyEnv pk msk [['A'], ['B']] t).check (fun (sk, t) =>
      match sk with
      | none => false
      | some sk => (Ghw11.tkgen sk t).check (fun (a, _) => (Ghw11.tkgen sk (t.bump 0)).check fun (b, _) =>
          decide (a.map (·.1.kZ) ≠ b.map (·.1.kZ)))) &&
    (Ghw11.encrypt toyEnv pk caseText .human [1, 2] t).check (fun (ct, _) =>
      (Ghw11.encrypt toyEnv pk caseText .human [1, 2] (t.bump 4)).check fun (ct', _) =>
        decide (ct.ciDi ≠ ct'.ciDi))) = true := by decide +kernel

/-- AW11: `C70_setup_used`, `C70_authgen_used`, `C70_encrypt_used`. -/
example : (Aw11.setup countTape).check (fun (gk, t) => decide (gk.g2 ≠ 0 ∧ toyEnv.pair gk.g1 gk.g2 ≠ 0) &&
    (Aw11.authgen asciiCase toyEnv gk [['A'], ['B'], ['C']] t).check (fun (a, t) =>
      match a with
      | none => false
      | some (pk, _) => casePol.leaves.all (fun l =>
          (Aw11.findPkAttr (removeIndex (asciiCase.upper (leafIdx l))) [pk]).isSome) &&
        (Aw11.encrypt asciiCase toyEnv gk [pk] caseText .human [1, 2] t).check (fun (ct, _) =>
          (Aw11.encrypt asciiCase toyEnv gk [pk] caseText .human [1, 2] (t.bump 5)).check fun (ct', _) =>
            decide (ct.c.map (·.c2) ≠ ct'.c.map (·.c2))))) = true := by decide +kernel

/-- LSW: `C70_setup_used`, `C70_keygen_used`, `C70_encrypt_used_partial`, and `C70_violated_encrypt`: with two attributes,
the second scalar changes the ciphertext, the third one does not. -/
example : (Lsw.setup toyEnv countTape).check (fun ((pk, msk), t) =>
    decide (pk.g1 ≠ 0 ∧ pk.g2 ≠ 0 ∧ msk.alpha2 ≠ 0 ∧ pk.g1B ≠ 0) &&
    (Lsw.keygen toyEnv pk msk caseText .human t).check (fun (sk, _) =>
      (Lsw.keygen toyEnv pk msk caseText .human (t.bump 3)).check fun (sk', _) =>
        decide (sk.dj.map (·.d2) ≠ sk'.dj.map (·.d2))) &&
    (Lsw.encrypt toyEnv pk [['A'], ['B']] [1, 2] t).check (fun (ct, _) =>
      (Lsw.encrypt toyEnv pk [['A'], ['B']] [1, 2] (t.bump 1)).check (fun (ct', _) =>
        decide (ct.ej.map (·.e2) ≠ ct'.ej.map (·.e2))) &&
      (Lsw.encrypt toyEnv pk [['A'], ['B']] [1, 2] (t.bump 2)).check (fun (ct', _) =>
        decide (ct.ej.map (fun x => (x.e1, x.e2, x.e3)) = ct'.ej.map (fun x => (x.e1, x.e2, x.e3)) ∧ ct.e1 = ct'.e1 ∧
          ct.e2 = ct'.e2 ∧ ct.ct = ct'.ct)))) = true := by decide +kernel

/-- YCT14: `C70_setup_used`, `C70_keygen_used`, `C70_encrypt_used`. -/
example : (Yct14.setup [['A'], ['B'], ['C']] countTape).check (fun ((pk, msk), t) => decide (countTape.fr 0 ≠ 0) &&
    casePol.leaves.all (fun l => (msk.getPrivate (removeIndex (leafIdx l))).check fun s => decide (s ≠ 0)) &&
    pk.attributes.all (fun a => match a.node with | some (.pub g) => decide (g ≠ 0) | _ => true) &&
    (Yct14.keygen msk caseText .human t).check (fun (sk, _) =>
      (Yct14.keygen msk caseText .human (t.bump 0)).check fun (sk', _) =>
        !(sk.du.zip sk'.du).all fun (a, b) => match a.node, b.node with
          | some (.priv x), some (.priv y) => decide (x = y)
          | _, _ => false) &&
    (Yct14.encrypt toyEnv pk [['A'], ['B']] [1, 2] t).check (fun (ct, _) =>
      (Yct14.encrypt toyEnv pk [['A'], ['B']] [1, 2] (t.bump 0)).check fun (ct', _) =>
        !(ct.attributes.zip ct'.attributes).all fun (a, b) => match a.node, b.node with
          | some (.pub x), some (.pub y) => decide (x = y)
          | _, _ => false)) = true := by decide +kernel

/-- AC17: `C70_setup_used`, `C70_cp_keygen_used`, `C70_kp_keygen_used`, `C70_cp_encrypt_used`, `C70_kp_encrypt_used`. -/
example : (Ac17.setup toyEnv countTape).check (fun ((pk, msk), t) =>
    decide (countTape.g1 0 ≠ 0 ∧ msk.g ≠ 0 ∧ msk.h ≠ 0 ∧ msk.a.Nodup) && msk.b.all (fun b => decide (b ≠ 0)) &&
    pk.hA.all (fun x => decide (x ≠ 0)) &&
    (Ac17.cpKeygen toyEnv msk [['A'], ['B']] t).check (fun (sk, _) =>
      (Ac17.cpKeygen toyEnv msk [['A'], ['B']] (t.bump 4)).check fun (sk', _) => decide (sk.sk.kP ≠ sk'.sk.kP)) &&
    (Ac17.kpKeygen toyEnv msk caseText .human t).check (fun (sk, _) =>
      (Ac17.kpKeygen toyEnv msk caseText .human (t.bump 5)).check fun (sk', _) => decide (sk.sk.k ≠ sk'.sk.k)) &&
    (Ac17.cpEncrypt toyEnv pk caseText [1, 2] .human t).check (fun (ct, _) =>
      (Ac17.cpEncrypt toyEnv pk caseText [1, 2] .human (t.bump 1)).check fun (ct', _) => decide (ct.ct.c ≠ ct'.ct.c)) &&
    (Ac17.kpEncrypt toyEnv pk [['A'], ['B']] [1, 2] t).check (fun (ct, _) =>
      (Ac17.kpEncrypt toyEnv pk [['A'], ['B']] [1, 2] (t.bump 1)).check fun (ct', _) =>
        decide (ct.ct.c ≠ ct'.ct.c))) = true := by decide +kernel

/-- BDABE: `C70_setup_used`, `C70_authgen_used`, `C70_keygen_used`, `C70_encrypt_used`. -/
example : (Bdabe.setup toyEnv countTape).check (fun ((pk, msk), t) => decide (pk.g1 ≠ 0 ∧ pk.p1 ≠ 0) &&
    (Bdabe.authgen pk msk ['A'] t).check (fun (skA, t) =>
      (Bdabe.keygen pk skA ['U'] t).check (fun (uk, _) =>
        (Bdabe.keygen pk skA ['U'] (t.bump 0)).check fun (uk', _) => decide (uk.pk.u1 ≠ uk'.pk.u1)) &&
      (Bdabe.requestAttributePk toyEnv pk skA (chars% "A::a")).check (fun k1 =>
        (Bdabe.requestAttributePk toyEnv pk skA (chars% "A::b")).check fun k2 =>
          (DnfPolicy.fromString (chars% "\"A::a\" or \"A::b\"") ([k1, k2].map Bdabe.PublicAttributeKey.view) .human).check
            (fun d => d.length == 2) &&
          (Bdabe.encrypt toyEnv pk [k1, k2] (chars% "\"A::a\" or \"A::b\"") .human [1, 2] t).check fun (ct, _) =>
            (Bdabe.encrypt toyEnv pk [k1, k2] (chars% "\"A::a\" or \"A::b\"") .human [1, 2] (t.bump 1)).check
              fun (ct', _) => decide (ct.j.map (·.e2) ≠ ct'.j.map (·.e2))))) = true := by decide +kernel

/-- MKE08: `C70_setup_used`, `C70_authgen_used`, `C70_keygen_used`, `C70_encrypt_used`. -/
example : (Mke08.setup toyEnv countTape).check (fun ((pk, msk), t) =>
    decide (pk.g1 ≠ 0 ∧ pk.p1 ≠ 0 ∧ countTape.g1 0 ≠ 0 ∧ countTape.g2 0 ≠ 0 ∧ toyEnv.pair (t.g1 0) (t.g2 0) ≠ 0) &&
    (Mke08.keygen pk msk ['U'] t).check (fun (uk, _) =>
      (Mke08.keygen pk msk ['U'] (t.bump 0)).check fun (uk', _) => decide (uk.pk.g1 ≠ uk'.pk.g1)) &&
    (Mke08.authgen ['A'] t).check (fun (skA, t) =>
      (Mke08.requestAuthorityPk toyEnv pk (chars% "A::a") skA).check (fun k1 =>
        (Mke08.requestAuthorityPk toyEnv pk (chars% "A::b") skA).check fun k2 =>
          (DnfPolicy.fromString (chars% "\"A::a\" or \"A::b\"") ([k1, k2].map Mke08.PublicAttributeKey.view) .human).check
            (fun d => d.length == 2) &&
          (Mke08.encrypt toyEnv pk [k1, k2] (chars% "\"A::a\" or \"A::b\"") .human [1, 2] t).check fun (ct, _) =>
            (Mke08.encrypt toyEnv pk [k1, k2] (chars% "\"A::a\" or \"A::b\"") .human [1, 2] (t.bump 2)).check
              fun (ct', _) => decide (ct.e.map (·.j3) ≠ ct'.e.map (·.j3))))) = true := by decide +kernel

end Rabe
