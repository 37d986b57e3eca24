import Verif.Props.OutsiderDnf
import Verif.Props.OutsiderAw11
import Verif.Instance.Bn

/-!
# Cases for C77

In every scheme a computation that opens the ciphertext for one value of the random number of the encryption, whatever
the session element and the master secret: the bounds of C77 are about computations that do succeed sometimes. The
hypotheses of the theorems hold in all cases.
-/

namespace Rabe

/-- The computation that adds the seen elements of `Gt` with these exponents. -/
def onTgt (l : List Fr) : Formula Fr := ⟨fun _ _ => 0, fun i => l.getD i 0⟩

/-- An encryption. -/
def cpJob (text : Str) : CpJob Fr Fr Fr Fr := ⟨text, .human, [1, 2, 3], toyTape⟩

/-- An encryption. -/
def kpJob (attrs : List Str) : KpJob Fr Fr Fr Fr := ⟨attrs, [1, 2, 3], toyTape⟩

/-- Nothing else is seen. -/
def noView : View Fr Fr Fr := ⟨[], [], []⟩

example : toyEnv.pair (toyTape.g1 0) (toyTape.g2 0) ≠ 0 ∧
    Bsw.Opened toyEnv (onTgt [-1, 1]) toyTape (cpJob (chars% "\"A\" and \"B\"")) [cpJob (chars% "\"C\"")] noView
      (1, 5, 7) := by
  have h : (Bsw.setup toyEnv (toyTape.setFr 1 7)).check (fun x =>
      (Bsw.encrypt toyEnv x.1.1 (chars% "\"A\" and \"B\"") .human [1, 2, 3] ((toyTape.setFr 0 1).setGt 5)).check fun y =>
      (Bsw.encrypt toyEnv x.1.1 (chars% "\"C\"") .human [1, 2, 3] toyTape).check fun z =>
      decide ((onTgt [-1, 1]).eval toyEnv (View.all [noView, x.1.1.seen, y.1.seen, z.1.seen]) = 5)) = true := by
    decide +kernel
  simp only [Res.check_iff, decide_eq_true_eq] at h
  obtain ⟨⟨⟨pk, msk⟩, t'⟩, h1, ⟨ct, u⟩, h2, ⟨c, u'⟩, h3, h4⟩ := h
  exact ⟨by decide +kernel, pk, msk, t', ct, u, [c], h1, h2, .cons ⟨u', h3⟩ .nil, h4⟩

example : toyEnv.pair (toyTape.g1 0) (toyTape.g2 0) ≠ 0 ∧
    Ghw11.Opened toyEnv (onTgt [-1, 1]) toyTape (cpJob (chars% "\"A\" and \"B\"")) [cpJob (chars% "\"C\"")] noView
      (1, 5, 7) := by
  have h : (Ghw11.setup toyEnv (toyTape.setFr 1 7)).check (fun x =>
      (Ghw11.encrypt toyEnv x.1.1 (chars% "\"A\" and \"B\"") .human [1, 2, 3] ((toyTape.setFr 0 1).setGt 5)).check fun y =>
      (Ghw11.encrypt toyEnv x.1.1 (chars% "\"C\"") .human [1, 2, 3] toyTape).check fun z =>
      decide ((onTgt [-1, 1]).eval toyEnv (View.all [noView, x.1.1.seen, y.1.seen, z.1.seen]) = 5)) = true := by
    decide +kernel
  simp only [Res.check_iff, decide_eq_true_eq] at h
  obtain ⟨⟨⟨pk, msk⟩, t'⟩, h1, ⟨ct, u⟩, h2, ⟨c, u'⟩, h3, h4⟩ := h
  exact ⟨by decide +kernel, pk, msk, t', ct, u, [c], h1, h2, .cons ⟨u', h3⟩ .nil, h4⟩

example : toyEnv.pair (toyTape.g1 0) (toyTape.g2 0) ≠ 0 ∧ toyTape.fr 1 ≠ 0 ∧
    Lsw.Opened toyEnv (onTgt [-1, 1]) toyTape (kpJob [['A'], ['B']]) [kpJob [['C']]] noView (1, 5, 7) := by
  have h : (Lsw.setup toyEnv (toyTape.setFr 0 7)).check (fun x =>
      (Lsw.encrypt toyEnv x.1.1 [['A'], ['B']] [1, 2, 3] ((toyTape.setFr 0 1).setGt 5)).check fun y =>
      (Lsw.encrypt toyEnv x.1.1 [['C']] [1, 2, 3] toyTape).check fun z =>
      decide ((onTgt [-1, 1]).eval toyEnv (View.all [noView, x.1.1.seen, y.1.seen, z.1.seen]) = 5)) = true := by
    decide +kernel
  simp only [Res.check_iff, decide_eq_true_eq] at h
  obtain ⟨⟨⟨pk, msk⟩, t'⟩, h1, ⟨ct, u⟩, h2, ⟨c, u'⟩, h3, h4⟩ := h
  exact ⟨by decide +kernel, by decide +kernel, pk, msk, t', ct, u, [c], h1, h2, .cons ⟨u', h3⟩ .nil, h4⟩

example : toyEnv.pair (toyTape.g1 0) (toyTape.g2 0) ≠ 0 ∧
    Ac17.CpOpened toyEnv (onTgt [-1, -1, 1]) toyTape (cpJob (chars% "\"A\" and \"B\"")) [cpJob (chars% "\"C\"")] noView
      (1, 5, 7) := by
  have h : (Ac17.setup toyEnv (toyTape.setFr 6 7)).check (fun x =>
      (Ac17.cpEncrypt toyEnv x.1.1 (chars% "\"A\" and \"B\"") [1, 2, 3] .human ((toyTape.setFr 0 1).setGt 5)).check fun y =>
      (Ac17.cpEncrypt toyEnv x.1.1 (chars% "\"C\"") [1, 2, 3] .human toyTape).check fun z =>
      decide ((onTgt [-1, -1, 1]).eval toyEnv (View.all [noView, x.1.1.seen, y.1.ct.seen, z.1.ct.seen]) = 5)) = true := by
    decide +kernel
  simp only [Res.check_iff, decide_eq_true_eq] at h
  obtain ⟨⟨⟨pk, msk⟩, t'⟩, h1, ⟨ct, u⟩, h2, ⟨c, u'⟩, h3, h4⟩ := h
  exact ⟨by decide +kernel, pk, msk, t', ct, u, [c], h1, h2, .cons ⟨u', h3⟩ .nil, h4⟩

example : toyEnv.pair (toyTape.g1 0) (toyTape.g2 0) ≠ 0 ∧
    Ac17.KpOpened toyEnv (onTgt [-1, -1, 1]) toyTape (kpJob [['A'], ['B']]) [kpJob [['C']]] noView (1, 5, 7) := by
  have h : (Ac17.setup toyEnv (toyTape.setFr 6 7)).check (fun x =>
      (Ac17.kpEncrypt toyEnv x.1.1 [['A'], ['B']] [1, 2, 3] ((toyTape.setFr 0 1).setGt 5)).check fun y =>
      (Ac17.kpEncrypt toyEnv x.1.1 [['C']] [1, 2, 3] toyTape).check fun z =>
      decide ((onTgt [-1, -1, 1]).eval toyEnv (View.all [noView, x.1.1.seen, y.1.ct.seen, z.1.ct.seen]) = 5)) = true := by
    decide +kernel
  simp only [Res.check_iff, decide_eq_true_eq] at h
  obtain ⟨⟨⟨pk, msk⟩, t'⟩, h1, ⟨ct, u⟩, h2, ⟨c, u'⟩, h3, h4⟩ := h
  exact ⟨by decide +kernel, pk, msk, t', ct, u, [c], h1, h2, .cons ⟨u', h3⟩ .nil, h4⟩

example : toyTape.gt 0 ≠ 0 ∧
    Yct14.Opened toyEnv (onTgt [0, 2]) [['A'], ['B']] toyTape (kpJob [['A'], ['B']]) [kpJob [['A']]] noView (2, 7) := by
  have h : (Yct14.setup [['A'], ['B']] (toyTape.setFr 0 7)).check (fun x =>
      (Yct14.encrypt toyEnv x.1.1 [['A'], ['B']] [1, 2, 3] (toyTape.setFr 0 2)).check fun y =>
      (Yct14.encrypt toyEnv x.1.1 [['A']] [1, 2, 3] toyTape).check fun z =>
      decide ((onTgt [0, 2]).eval toyEnv (View.all [noView, ⟨[], [], [(1 : Fr) • x.1.1.g]⟩, x.1.1.seen, y.1.seen, z.1.seen]) =
        (2 : Fr) • x.1.1.g)) = true := by
    decide +kernel
  simp only [Res.check_iff, decide_eq_true_eq] at h
  obtain ⟨⟨⟨pk, msk⟩, t'⟩, h1, ⟨ct, u⟩, h2, ⟨c, u'⟩, h3, h4⟩ := h
  exact ⟨by decide +kernel, pk, msk, t', ct, u, [c], h1, h2, .cons ⟨u', h3⟩ .nil, h4⟩

/-- A requested public attribute key. -/
def request : KeyRequest Fr Fr Fr Fr := ⟨(chars% "A::a"), ['A'], toyTape⟩

example : toyEnv.pair (toyTape.g1 0) (toyTape.g2 0) ≠ 0 ∧
    (∀ T ∈ exponents (chars% "\"A::a\"") .human (Bdabe.formalKeys toyEnv [request]), T.gt1 ≠ 0) ∧
    Bdabe.Opened toyEnv (onTgt [0, -1, 1]) toyTape [request] (cpJob (chars% "\"A::a\"")) [cpJob (chars% "\"A::a\"")] noView
      0 (1, 5, 7) := by
  have h : (Bdabe.setup toyEnv (toyTape.setFr 0 7)).check (fun x =>
      (Bdabe.authgen x.1.1 x.1.2 ['A'] toyTape).check fun a =>
      (Bdabe.requestAttributePk toyEnv x.1.1 a.1 (chars% "A::a")).check fun k =>
      (Bdabe.encrypt toyEnv x.1.1 [k] (chars% "\"A::a\"") .human [1, 2, 3] ((toyTape.setFr 0 1).scaleG1 5)).check fun y =>
      (Bdabe.encrypt toyEnv x.1.1 [k] (chars% "\"A::a\"") .human [1, 2, 3] toyTape).check fun z =>
      decide ((onTgt [0, -1, 1]).eval toyEnv (View.all [noView, x.1.1.seen, View.all [k.seen], y.1.seen, z.1.seen]) =
        (5 : Fr) • toyEnv.pair 1 1)) = true := by
    decide +kernel
  simp only [Res.check_iff, decide_eq_true_eq] at h
  obtain ⟨⟨⟨pk, msk⟩, t'⟩, h1, ⟨a, w⟩, ha, k, hk, ⟨ct, u⟩, h2, ⟨c, u'⟩, h3, h4⟩ := h
  exact ⟨by decide +kernel, by decide +kernel, pk, msk, t', [k], ct, u, [c], h1, .cons ⟨a, w, ha, hk⟩ .nil, h2,
    .cons ⟨u', h3⟩ .nil, h4⟩

example : toyEnv.pair (toyTape.g1 0) (toyTape.g2 0) ≠ 0 ∧
    (∀ T ∈ exponents (chars% "\"A::a\"") .human (Mke08.formalKeys toyEnv [request]), T.gt2 ≠ 0) ∧
    Mke08.Opened toyEnv (onTgt [0, 0, -1, -1, 1, 1]) toyTape [request] (cpJob (chars% "\"A::a\""))
      [cpJob (chars% "\"A::a\"")] noView 0 (1, 5, 7) := by
  have h : (Mke08.setup toyEnv (toyTape.setFr 1 7)).check (fun x =>
      (Mke08.authgen ['A'] toyTape).check fun a =>
      (Mke08.requestAuthorityPk toyEnv x.1.1 (chars% "A::a") a.1).check fun k =>
      (Mke08.encrypt toyEnv x.1.1 [k] (chars% "\"A::a\"") .human [1, 2, 3] ((toyTape.setFr (0 + 1) 1).setFr 0 5)).check fun y =>
      (Mke08.encrypt toyEnv x.1.1 [k] (chars% "\"A::a\"") .human [1, 2, 3] toyTape).check fun z =>
      decide ((onTgt [0, 0, -1, -1, 1, 1]).eval toyEnv
        (View.all [noView, x.1.1.seen, View.all [k.seen], y.1.seen, z.1.seen]) =
        (1 + 5 : Fr) • toyEnv.pair 1 1)) = true := by
    decide +kernel
  simp only [Res.check_iff, decide_eq_true_eq] at h
  obtain ⟨⟨⟨pk, msk⟩, t'⟩, h1, ⟨a, w⟩, ha, k, hk, ⟨ct, u⟩, h2, ⟨c, u'⟩, h3, h4⟩ := h
  exact ⟨by decide +kernel, by decide +kernel, pk, msk, t', [k], ct, u, [c], h1, .cons ⟨a, w, ha, hk⟩ .nil, h2,
    .cons ⟨u', h3⟩ .nil, h4⟩

example : toyEnv.pair (toyTape.g1 0) (toyTape.g2 0) ≠ 0 ∧
    Aw11.Opened asciiCase toyEnv (onTgt [1, 1, -1]) toyTape [⟨[['A']], toyTape⟩] (cpJob (chars% "\"A\""))
      [cpJob (chars% "\"A\"")] noView 0 0 1 (1, (3, 5), 7) := by
  have h : (Aw11.setup toyTape).check (fun x =>
      (Aw11.authgen asciiCase toyEnv x.1 [['A']] (toyTape.setFr (2 * 0) 7)).check fun a =>
      (Res.unwrapOption a.1).check fun k =>
      (Aw11.encrypt asciiCase toyEnv x.1 [k.1] (chars% "\"A\"") .human [1, 2, 3]
        (((toyTape.setFr 1 1).setFr 0 3).setGt 5)).check fun y =>
      (Aw11.encrypt asciiCase toyEnv x.1 [k.1] (chars% "\"A\"") .human [1, 2, 3] toyTape).check fun z =>
      decide ((onTgt [1, 1, -1]).eval toyEnv
        (View.all [noView, x.1.seen, View.all [k.1.seen], y.1.seen, z.1.seen]) = 5)) = true := by
    decide +kernel
  simp only [Res.check_iff, decide_eq_true_eq] at h
  obtain ⟨⟨gk, t'⟩, h1, ⟨a, w⟩, ha, ⟨k, l⟩, hk, ⟨ct, u⟩, h2, ⟨c, u'⟩, h3, h4⟩ := h
  have : a = some (k, l) := by
    cases a with
    | none => simp at hk
    | some a => simpa using hk
  subst this
  exact ⟨by decide +kernel, gk, t', [k], ct, u, [c], h1, .cons ⟨l, w, ha⟩ .nil, h2, .cons ⟨u', h3⟩ .nil, h4⟩

end Rabe
