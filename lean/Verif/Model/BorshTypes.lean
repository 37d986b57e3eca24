import Verif.Model.Borsh
import Verif.Model.Bsw
import Verif.Model.Ac17
import Verif.Model.Lsw
import Verif.Model.Yct14
import Verif.Model.Aw11
import Verif.Model.Bdabe
import Verif.Model.Mke08

/-!
# Binary serialisation of keys and ciphertexts

The derived instances of all key and ciphertext types: the fields in the order of their declaration.
-/

namespace Rabe

variable {F G1 G2 Gt : Type}

namespace Bsw

/-- Derived instance, `/repo/src/schemes/bsw/mod.rs:41-49`. -/
instance [Borsh G1] [Borsh G2] [Borsh Gt] : Borsh (PublicKey G1 G2 Gt) :=
  Borsh.via (fun x => (x.g1, x.g2, x.h, x.f, x.eGgAlpha)) (fun p => ⟨p.1, p.2.1, p.2.2.1, p.2.2.2.1, p.2.2.2.2⟩)

/-- Derived instance, `/repo/src/schemes/bsw/mod.rs:53-58`. -/
instance [Borsh F] [Borsh G2] : Borsh (MasterKey F G2) :=
  Borsh.via (fun x => (x.beta, x.g2Alpha)) (fun p => ⟨p.1, p.2⟩)

/-- Derived instance, `/repo/src/schemes/bsw/mod.rs:83-89`. -/
instance [Borsh G1] [Borsh G2] : Borsh (Attribute G1 G2) :=
  Borsh.via (fun x => (x.string, x.g1, x.g2)) (fun p => ⟨p.1, p.2.1, p.2.2⟩)

/-- Derived instance, `/repo/src/schemes/bsw/mod.rs:62-70`. -/
instance [Borsh G1] [Borsh G2] [Borsh Gt] : Borsh (Ciphertext G1 G2 Gt) :=
  Borsh.via (fun x => (x.policy, x.c, x.cP, x.cY, x.data)) (fun p => ⟨p.1, p.2.1, p.2.2.1, p.2.2.2.1, p.2.2.2.2⟩)

/-- Derived instance, `/repo/src/schemes/bsw/mod.rs:74-79`. -/
instance [Borsh G1] [Borsh G2] : Borsh (SecretKey G1 G2) :=
  Borsh.via (fun x => (x.d, x.dJ)) (fun p => ⟨p.1, p.2⟩)

end Bsw

namespace Ac17

/-- Derived instance, `/repo/src/schemes/ac17/mod.rs:60-66`. -/
instance [Borsh G1] [Borsh G2] [Borsh Gt] : Borsh (PublicKey G1 G2 Gt) :=
  Borsh.via (fun x => (x.g, x.hA, x.eGhKa)) (fun p => ⟨p.1, p.2.1, p.2.2⟩)

/-- Derived instance, `/repo/src/schemes/ac17/mod.rs:70-78`. -/
instance [Borsh F] [Borsh G1] [Borsh G2] : Borsh (MasterKey F G1 G2) :=
  Borsh.via (fun x => (x.g, x.h, x.gK, x.a, x.b)) (fun p => ⟨p.1, p.2.1, p.2.2.1, p.2.2.2.1, p.2.2.2.2⟩)

/-- Derived instance, `/repo/src/schemes/ac17/mod.rs:82-89`. -/
instance [Borsh G1] [Borsh G2] [Borsh Gt] : Borsh (Ciphertext G1 G2 Gt) :=
  Borsh.via (fun x => (x.c0, x.c, x.cP, x.ct)) (fun p => ⟨p.1, p.2.1, p.2.2.1, p.2.2.2⟩)

/-- Derived instance, `/repo/src/schemes/ac17/mod.rs:93-98`. -/
instance [Borsh G1] [Borsh G2] [Borsh Gt] : Borsh (CpCiphertext G1 G2 Gt) :=
  Borsh.via (fun x => (x.policy, x.ct)) (fun p => ⟨p.1, p.2⟩)

/-- Derived instance, `/repo/src/schemes/ac17/mod.rs:102-107`. -/
instance [Borsh G1] [Borsh G2] [Borsh Gt] : Borsh (KpCiphertext G1 G2 Gt) :=
  Borsh.via (fun x => (x.attr, x.ct)) (fun p => ⟨p.1, p.2⟩)

/-- Derived instance, `/repo/src/schemes/ac17/mod.rs:111-117`. -/
instance [Borsh G1] [Borsh G2] : Borsh (SecretKey G1 G2) :=
  Borsh.via (fun x => (x.k0, x.k, x.kP)) (fun p => ⟨p.1, p.2.1, p.2.2⟩)

/-- Derived instance, `/repo/src/schemes/ac17/mod.rs:121-126`. -/
instance [Borsh G1] [Borsh G2] : Borsh (KpSecretKey G1 G2) :=
  Borsh.via (fun x => (x.policy, x.sk)) (fun p => ⟨p.1, p.2⟩)

/-- Derived instance, `/repo/src/schemes/ac17/mod.rs:130-135`. -/
instance [Borsh G1] [Borsh G2] : Borsh (CpSecretKey G1 G2) :=
  Borsh.via (fun x => (x.attr, x.sk)) (fun p => ⟨p.1, p.2⟩)

end Ac17

namespace Lsw

/-- Derived instance, `/repo/src/schemes/lsw/mod.rs:42-51`. -/
instance [Borsh G1] [Borsh G2] [Borsh Gt] : Borsh (PublicKey G1 G2 Gt) :=
  Borsh.via (fun x => (x.g1, x.g2, x.g1B, x.g1B2, x.hB, x.eGgAlpha)) (fun p => ⟨p.1, p.2.1, p.2.2.1, p.2.2.2.1, p.2.2.2.2.1, p.2.2.2.2.2⟩)

/-- Derived instance, `/repo/src/schemes/lsw/mod.rs:55-63`. -/
instance [Borsh F] [Borsh G1] [Borsh G2] : Borsh (MasterKey F G1 G2) :=
  Borsh.via (fun x => (x.alpha1, x.alpha2, x.b, x.hG1, x.hG2)) (fun p => ⟨p.1, p.2.1, p.2.2.1, p.2.2.2.1, p.2.2.2.2⟩)

/-- Derived instance, `/repo/src/schemes/lsw/mod.rs:71`. -/
instance [Borsh G1] [Borsh G2] : Borsh (KeyAttr G1 G2) :=
  Borsh.via (fun x => (x.name, x.d1, x.d2, x.d3, x.d4, x.d5)) (fun p => ⟨p.1, p.2.1, p.2.2.1, p.2.2.2.1, p.2.2.2.2.1, p.2.2.2.2.2⟩)

/-- Derived instance, `/repo/src/schemes/lsw/mod.rs:67-72`. -/
instance [Borsh G1] [Borsh G2] : Borsh (SecretKey G1 G2) :=
  Borsh.via (fun x => (x.policy, x.dj)) (fun p => ⟨p.1, p.2⟩)

/-- Derived instance, `/repo/src/schemes/lsw/mod.rs:81`. -/
instance [Borsh G1] : Borsh (CtAttr G1) :=
  Borsh.via (fun x => (x.name, x.e1, x.e2, x.e3)) (fun p => ⟨p.1, p.2.1, p.2.2.1, p.2.2.2⟩)

/-- Derived instance, `/repo/src/schemes/lsw/mod.rs:76-83`. -/
instance [Borsh G1] [Borsh G2] [Borsh Gt] : Borsh (Ciphertext G1 G2 Gt) :=
  Borsh.via (fun x => (x.e1, x.e2, x.ej, x.ct)) (fun p => ⟨p.1, p.2.1, p.2.2.1, p.2.2.2⟩)

end Lsw

namespace Aw11

/-- Derived instance, `/repo/src/schemes/aw11/mod.rs:48-53`. -/
instance [Borsh G1] [Borsh G2] : Borsh (GlobalKey G1 G2) :=
  Borsh.via (fun x => (x.g1, x.g2)) (fun p => ⟨p.1, p.2⟩)

/-- Derived instance, `/repo/src/schemes/aw11/mod.rs:60`. -/
instance [Borsh G2] [Borsh Gt] : Borsh (PubAttr G2 Gt) :=
  Borsh.via (fun x => (x.name, x.e, x.y)) (fun p => ⟨p.1, p.2.1, p.2.2⟩)

/-- Derived instance, `/repo/src/schemes/aw11/mod.rs:57-61`. -/
instance [Borsh G2] [Borsh Gt] : Borsh (PublicKey G2 Gt) :=
  Borsh.via (fun x => x.attr) (fun p => ⟨p⟩)

/-- Derived instance, `/repo/src/schemes/aw11/mod.rs:68`. -/
instance [Borsh F] : Borsh (MskAttr F) :=
  Borsh.via (fun x => (x.name, x.alpha, x.y)) (fun p => ⟨p.1, p.2.1, p.2.2⟩)

/-- Derived instance, `/repo/src/schemes/aw11/mod.rs:65-69`. -/
instance [Borsh F] : Borsh (MasterKey F) :=
  Borsh.via (fun x => x.attr) (fun p => ⟨p⟩)

/-- Derived instance, `/repo/src/schemes/aw11/mod.rs:78`. -/
instance [Borsh G2] [Borsh Gt] : Borsh (CtAttr G2 Gt) :=
  Borsh.via (fun x => (x.name, x.c1, x.c2, x.c3)) (fun p => ⟨p.1, p.2.1, p.2.2.1, p.2.2.2⟩)

/-- Derived instance, `/repo/src/schemes/aw11/mod.rs:73-80`. -/
instance [Borsh G2] [Borsh Gt] : Borsh (Ciphertext G2 Gt) :=
  Borsh.via (fun x => (x.policy, x.c0, x.c, x.ct)) (fun p => ⟨p.1, p.2.1, p.2.2.1, p.2.2.2⟩)

/-- Derived instance, `/repo/src/schemes/aw11/mod.rs:84-89`. -/
instance [Borsh G1] : Borsh (SecretKey G1) :=
  Borsh.via (fun x => (x.gid, x.attr)) (fun p => ⟨p.1, p.2⟩)

end Aw11

namespace Bdabe

/-- Derived instance, `/repo/src/schemes/bdabe/mod.rs:47-55`. -/
instance [Borsh G1] [Borsh G2] [Borsh Gt] : Borsh (PublicKey G1 G2 Gt) :=
  Borsh.via (fun x => (x.g1, x.g2, x.p1, x.p2, x.eGgY)) (fun p => ⟨p.1, p.2.1, p.2.2.1, p.2.2.2.1, p.2.2.2.2⟩)

/-- Derived instance, `/repo/src/schemes/bdabe/mod.rs:59-63`. -/
instance [Borsh F] : Borsh (MasterKey F) :=
  Borsh.via (fun x => x.y) (fun p => ⟨p⟩)

/-- Derived instance, `/repo/src/schemes/bdabe/mod.rs:77-83`. -/
instance [Borsh G1] [Borsh G2] : Borsh (PublicUserKey G1 G2) :=
  Borsh.via (fun x => (x.u, x.u1, x.u2)) (fun p => ⟨p.1, p.2.1, p.2.2⟩)

/-- Derived instance, `/repo/src/schemes/bdabe/mod.rs:87-92`. -/
instance [Borsh G1] [Borsh G2] : Borsh (SecretUserKey G1 G2) :=
  Borsh.via (fun x => (x.u1, x.u2)) (fun p => ⟨p.1, p.2⟩)

/-- Derived instance, `/repo/src/schemes/bdabe/mod.rs:96-102`. -/
instance [Borsh G1] [Borsh G2] : Borsh (SecretAttributeKey G1 G2) :=
  Borsh.via (fun x => (x.attr, x.au1, x.au2)) (fun p => ⟨p.1, p.2.1, p.2.2⟩)

/-- Derived instance, `/repo/src/schemes/bdabe/mod.rs:67-73`. -/
instance [Borsh G1] [Borsh G2] : Borsh (UserKey G1 G2) :=
  Borsh.via (fun x => (x.sk, x.pk, x.skA)) (fun p => ⟨p.1, p.2.1, p.2.2⟩)

/-- Derived instance, `/repo/src/schemes/bdabe/mod.rs:106-113`. -/
instance [Borsh G1] [Borsh G2] [Borsh Gt] : Borsh (PublicAttributeKey G1 G2 Gt) :=
  Borsh.via (fun x => (x.attr, x.a1, x.a2, x.a3)) (fun p => ⟨p.1, p.2.1, p.2.2.1, p.2.2.2⟩)

/-- Derived instance, `/repo/src/schemes/bdabe/mod.rs:117-124`. -/
instance [Borsh F] [Borsh G1] [Borsh G2] : Borsh (SecretAuthorityKey F G1 G2) :=
  Borsh.via (fun x => (x.name, x.a1, x.a2, x.a3)) (fun p => ⟨p.1, p.2.1, p.2.2.1, p.2.2.2⟩)

/-- Derived instance, `/repo/src/schemes/bdabe/mod.rs:128-137`. -/
instance [Borsh G1] [Borsh G2] [Borsh Gt] : Borsh (CiphertextTuple G1 G2 Gt) :=
  Borsh.via (fun x => (x.attr, x.e1, x.e2, x.e3, x.e4, x.e5)) (fun p => ⟨p.1, p.2.1, p.2.2.1, p.2.2.2.1, p.2.2.2.2.1, p.2.2.2.2.2⟩)

/-- Derived instance, `/repo/src/schemes/bdabe/mod.rs:141-147`. -/
instance [Borsh G1] [Borsh G2] [Borsh Gt] : Borsh (Ciphertext G1 G2 Gt) :=
  Borsh.via (fun x => (x.policy, x.j, x.ct)) (fun p => ⟨p.1, p.2.1, p.2.2⟩)

end Bdabe

namespace Mke08

/-- Derived instance, `/repo/src/schemes/mke08/mod.rs:52-61`. -/
instance [Borsh G1] [Borsh G2] [Borsh Gt] : Borsh (PublicKey G1 G2 Gt) :=
  Borsh.via (fun x => (x.g1, x.g2, x.p1, x.p2, x.eGgY1, x.eGgY2)) (fun p => ⟨p.1, p.2.1, p.2.2.1, p.2.2.2.1, p.2.2.2.2.1, p.2.2.2.2.2⟩)

/-- Derived instance, `/repo/src/schemes/mke08/mod.rs:65-70`. -/
instance [Borsh G1] [Borsh G2] : Borsh (MasterKey G1 G2) :=
  Borsh.via (fun x => (x.g1, x.g2)) (fun p => ⟨p.1, p.2⟩)

/-- Derived instance, `/repo/src/schemes/mke08/mod.rs:84-90`. -/
instance [Borsh G1] [Borsh G2] : Borsh (PublicUserKey G1 G2) :=
  Borsh.via (fun x => (x.name, x.g1, x.g2)) (fun p => ⟨p.1, p.2.1, p.2.2⟩)

/-- Derived instance, `/repo/src/schemes/mke08/mod.rs:94-99`. -/
instance [Borsh G1] [Borsh G2] : Borsh (SecretUserKey G1 G2) :=
  Borsh.via (fun x => (x.g1, x.g2)) (fun p => ⟨p.1, p.2⟩)

/-- Derived instance, `/repo/src/schemes/mke08/mod.rs:103-108`. -/
instance [Borsh F] : Borsh (SecretAuthorityKey F) :=
  Borsh.via (fun x => (x.name, x.r)) (fun p => ⟨p.1, p.2⟩)

/-- Derived instance, `/repo/src/schemes/mke08/mod.rs:112-120`. -/
instance [Borsh G1] [Borsh G2] [Borsh Gt] : Borsh (PublicAttributeKey G1 G2 Gt) :=
  Borsh.via (fun x => (x.attr, x.g1, x.g2, x.gt1, x.gt2)) (fun p => ⟨p.1, p.2.1, p.2.2.1, p.2.2.2.1, p.2.2.2.2⟩)

/-- Derived instance, `/repo/src/schemes/mke08/mod.rs:124-130`. -/
instance [Borsh G1] [Borsh G2] : Borsh (SecretAttributeKey G1 G2) :=
  Borsh.via (fun x => (x.attr, x.g1, x.g2)) (fun p => ⟨p.1, p.2.1, p.2.2⟩)

/-- Derived instance, `/repo/src/schemes/mke08/mod.rs:74-80`. -/
instance [Borsh G1] [Borsh G2] : Borsh (UserKey G1 G2) :=
  Borsh.via (fun x => (x.sk, x.pk, x.skA)) (fun p => ⟨p.1, p.2.1, p.2.2⟩)

/-- Derived instance, `/repo/src/schemes/mke08/mod.rs:144-154`. -/
instance [Borsh G1] [Borsh G2] [Borsh Gt] : Borsh (CTConjunction G1 G2 Gt) :=
  Borsh.via (fun x => (x.str, x.j1, x.j2, x.j3, x.j4, x.j5, x.j6)) (fun p => ⟨p.1, p.2.1, p.2.2.1, p.2.2.2.1, p.2.2.2.2.1, p.2.2.2.2.2.1, p.2.2.2.2.2.2⟩)

/-- Derived instance, `/repo/src/schemes/mke08/mod.rs:134-140`. -/
instance [Borsh G1] [Borsh G2] [Borsh Gt] : Borsh (Ciphertext G1 G2 Gt) :=
  Borsh.via (fun x => (x.policy, x.e, x.ct)) (fun p => ⟨p.1, p.2.1, p.2.2⟩)

end Mke08

namespace Yct14

/-- `Yct14Attribute`, `/repo/src/schemes/yct14/mod.rs:50-56`: the field `node` is marked `borsh(skip)` (line 53), so it is
not written and is read back as its default `None`. -/
instance : Borsh (Attribute F Gt) :=
  Borsh.via (fun x => x.name) (fun p => ⟨p, none⟩)

/-- `Yct14Type`, `/repo/src/schemes/yct14/mod.rs:58-64`: variant 0 is `Public`, variant 1 `Private`. -/
instance [Borsh F] [Borsh Gt] : Borsh (Node F Gt) where
  ser
    | .pub g => (Borsh.ser g).map ((0 : UInt8) :: ·)
    | .priv x => (Borsh.ser x).map ((1 : UInt8) :: ·)
  de
    | [] => none
    | b :: r =>
      if b = 0 then (Borsh.de r).map fun (g, r') => (.pub g, r')
      else if b = 1 then (Borsh.de r).map fun (x, r') => (.priv x, r')
      else none

/-- Derived instance, `/repo/src/schemes/yct14/mod.rs:139-145`. -/
instance [Borsh Gt] : Borsh (PublicKey F Gt) :=
  Borsh.via (fun x => (x.g, x.attributes)) (fun p => ⟨p.1, p.2⟩)

/-- Derived instance, `/repo/src/schemes/yct14/mod.rs:148-154`. -/
instance [Borsh F] : Borsh (MasterKey F Gt) :=
  Borsh.via (fun x => (x.s, x.attributes)) (fun p => ⟨p.1, p.2⟩)

/-- Derived instance, `/repo/src/schemes/yct14/mod.rs:172-178`. -/
instance : Borsh (SecretKey F Gt) :=
  Borsh.via (fun x => (x.policy, x.du)) (fun p => ⟨p.1, p.2⟩)

/-- Derived instance, `/repo/src/schemes/yct14/mod.rs:196-202`. -/
instance : Borsh (Ciphertext F Gt) :=
  Borsh.via (fun x => (x.attributes, x.ct)) (fun p => ⟨p.1, p.2⟩)

end Yct14

end Rabe
