import Verif.Proofs.GhashPclmul
import Verif.Model.GcmPclmul
/-! # The two builds of GCM side by side -/
namespace Verif.GcmPclmul
open Verif Verif.GhashPclmul

theorem osRefl {α : Type} (a : Outcome α) : OutSim (fun x y => x = y) a a := by
  cases a <;> first | exact rfl | trivial

/-- Equal members, related hash objects. -/
def StSim (s : St) (t : Gcm.St) : Prop := s.counter = t.counter ∧ s.counter0 = t.counter0 ∧ ObjSim s.hash t.hash ∧
  s.ctLen = t.ctLen ∧ s.aadLen = t.aadLen ∧ s.tag = t.tag ∧ s.stat = t.stat

/-- As `StSim`, before `init`: the hash objects only have the same buffer, the counters and lengths may be anything. -/
def PreSim (s : St) (t : Gcm.St) : Prop := s.hash.buf = t.hash.buf ∧ s.tag = t.tag ∧ s.stat = t.stat

theorem StSim.pre {s : St} {t : Gcm.St} (h : StSim s t) : PreSim s t := ⟨h.2.2.1.1, h.2.2.2.2.2⟩

abbrev H2 (h : HashObj Ctx × List Byte) (g : HashObj Ghash.Ctx × List Byte) : Prop := ObjSim h.1 g.1 ∧ h.2 = g.2

theorem sim_gctrInit {E : List Byte → List Byte} (hE : (E (Gcm.zeros 16)).length = 16) {h : HashObj Ctx} {g : HashObj Ghash.Ctx}
    (hb : h.buf = g.buf) (iv : List Byte) :
    OutSim (fun a b => a.1 = b.1 ∧ ObjSim a.2 b.2) (gctrInit E h iv) (Gcm.gctrInit E g iv) := by
  unfold gctrInit Gcm.gctrInit
  have hk := sim_setKey hb (E (Gcm.zeros 16)) hE
  dsimp only
  split
  · exact ⟨rfl, hk⟩
  · refine OutSim.bind (sim_hashUpdate hk iv) fun a b hab => ?_
    refine OutSim.bind (sim_hashUpdate hab _) fun a b hab => ?_
    refine OutSim.bind (sim_hashUpdate hab _) fun a b hab => ?_
    refine OutSim.bind (sim_hashFinal hab _) fun a b hab => ?_
    exact ⟨hab.2, hab.1.1, sim_reset hab.1.2⟩

def MSim (P : St → Gcm.St → Prop) (h : ModeObj St) (g : ModeObj Gcm.St) : Prop := h.buf = g.buf ∧ P h.st g.st

theorem sim_encInit {E : List Byte → List Byte} (hE : (E (Gcm.zeros 16)).length = 16) {h : ModeObj St} {g : ModeObj Gcm.St}
    (hs : MSim PreSim h g) (iv aad : List Byte) : OutSim (MSim StSim) (encInit E h iv aad) (Gcm.encInit E g iv aad) := by
  unfold encInit Gcm.encInit
  split
  · trivial
  · refine OutSim.bind (sim_gctrInit hE hs.2.1 iv) fun a b hab => ?_
    refine OutSim.bind (sim_hashUpdate hab.2 aad) fun x y hxy => ?_
    refine OutSim.bind (sim_hashUpdate hxy _) fun x y hxy => ?_
    exact ⟨hs.1, by rw [hab.1], hab.1, hxy, rfl, rfl, rfl, hs.2.2.2⟩

theorem sim_decInit {E : List Byte → List Byte} (hE : (E (Gcm.zeros 16)).length = 16) {h : ModeObj St} {g : ModeObj Gcm.St}
    (hs : MSim PreSim h g) (iv aad : List Byte) : OutSim (MSim StSim) (decInit E h iv aad) (Gcm.decInit E g iv aad) := by
  unfold decInit Gcm.decInit
  split
  · trivial
  · refine OutSim.bind (sim_gctrInit hE hs.2.1 iv) fun a b hab => ?_
    refine OutSim.bind (sim_hashUpdate hab.2 aad) fun x y hxy => ?_
    refine OutSim.bind (sim_hashUpdate hxy _) fun x y hxy => ?_
    exact ⟨hs.1, by rw [hab.1], hab.1, hxy, rfl, rfl, hs.2.2.1, hs.2.2.2⟩

/-- Related states, equal memories. -/
abbrev SM (a : St × Mem) (b : Gcm.St × Mem) : Prop := StSim a.1 b.1 ∧ a.2 = b.2

structure ImplSim (I : ModeImpl St) (J : ModeImpl Gcm.St) : Prop where
  upd : ∀ s t m src o n, StSim s t → OutSim SM (I.upd s m src o n) (J.upd t m src o n)
  fin : ∀ s t m inp o, StSim s t → OutSim SM (I.fin s m inp o) (J.fin t m inp o)

theorem sim_enc (C : BCipher) : ImplSim (encImpl C) (Gcm.encImpl C) where
  upd := by
    intro s t m src o n h
    obtain ⟨h1, h2, h3, h4, h5, h6, h7⟩ := h
    show OutSim SM (encUpd C s m src o n) (Gcm.encUpd C t m src o n)
    unfold encUpd Gcm.encUpd
    rw [h1, h4]
    refine OutSim.bind (osRefl _) ?_
    rintro a _ rfl
    dsimp only
    split
    · trivial
    · refine OutSim.bind (sim_hashUpdate h3 _) fun x y hxy => ?_
      exact ⟨⟨rfl, h2, hxy, rfl, h5, h6, h7⟩, rfl⟩
  fin := by
    intro s t m inp o h
    obtain ⟨h1, h2, h3, h4, h5, h6, h7⟩ := h
    show OutSim SM (encFin C s m inp o) (Gcm.encFin C t m inp o)
    unfold encFin Gcm.encFin
    refine OutSim.bind (R := SM) ?_ ?_
    · split
      · rw [h1, h4]
        refine OutSim.bind (osRefl _) ?_
        rintro a _ rfl
        refine OutSim.bind (sim_hashUpdate h3 _) fun x y hxy => ?_
        refine OutSim.bind (sim_hashUpdate hxy _) fun x y hxy => ?_
        dsimp only
        split
        · trivial
        · exact ⟨⟨rfl, h2, hxy, rfl, h5, h6, h7⟩, rfl⟩
      · exact ⟨⟨h1, h2, h3, h4, h5, h6, h7⟩, rfl⟩
    · rintro ⟨s, m⟩ ⟨t, m'⟩ ⟨⟨h1, h2, h3, h4, h5, h6, h7⟩, e⟩
      dsimp only at *
      rw [h4, h5, h2]
      refine OutSim.bind (sim_hashUpdate h3 _) fun x y hxy => ?_
      refine OutSim.bind (sim_hashFinal hxy _) fun x y hxy => ?_
      exact ⟨⟨h1, rfl, hxy.1, rfl, rfl, by rw [hxy.2], h7⟩, e⟩

theorem sim_dec (C : BCipher) : ImplSim (decImpl C) (Gcm.decImpl C) where
  upd := by
    intro s t m src o n h
    show OutSim SM (decUpd C s m src o n) (Gcm.decUpd C t m src o n)
    unfold decUpd Gcm.decUpd
    by_cases h0 : n = 0
    · rw [if_pos h0, if_pos h0]
      exact ⟨h, rfl⟩
    · obtain ⟨h1, h2, h3, h4, h5, h6, h7⟩ := h
      rw [if_neg h0, if_neg h0]
      dsimp only
      rw [h1, h4]
      split
      · trivial
      · refine OutSim.bind (sim_hashUpdate h3 _) fun x y hxy => ?_
        refine OutSim.bind (osRefl _) ?_
        rintro a _ rfl
        exact ⟨⟨rfl, h2, hxy, rfl, h5, h6, h7⟩, rfl⟩
  fin := by
    intro s t m inp o h
    obtain ⟨h1, h2, h3, h4, h5, h6, h7⟩ := h
    show OutSim SM (decFin C s m inp o) (Gcm.decFin C t m inp o)
    unfold decFin Gcm.decFin
    refine OutSim.bind (R := SM) ?_ ?_
    · split
      · dsimp only
        rw [h1, h4, h7]
        split
        · trivial
        · refine OutSim.bind (sim_hashUpdate h3 _) fun x y hxy => ?_
          refine OutSim.bind (sim_hashUpdate hxy _) fun x y hxy => ?_
          refine OutSim.bind (osRefl _) ?_
          rintro a _ rfl
          exact ⟨⟨rfl, h2, hxy, rfl, h5, h6, rfl⟩, rfl⟩
      · exact ⟨⟨h1, h2, h3, h4, h5, h6, h7⟩, rfl⟩
    · rintro ⟨s, m⟩ ⟨t, m'⟩ ⟨⟨h1, h2, h3, h4, h5, h6, h7⟩, e⟩
      dsimp only at *
      rw [h4, h5, h2, h6]
      refine OutSim.bind (sim_hashUpdate h3 _) fun x y hxy => ?_
      refine OutSim.bind (sim_hashFinal hxy _) fun x y hxy => ?_
      rw [hxy.2]
      split
      · trivial
      · exact ⟨⟨h1, rfl, hxy.1, rfl, rfl, rfl, rfl⟩, e⟩

/-- Related objects, equal memories, equal lengths. -/
abbrev OM (a : ModeObj St × Mem × Nat) (b : ModeObj Gcm.St × Mem × Nat) : Prop := MSim StSim a.1 b.1 ∧ a.2 = b.2

theorem sim_bulk {I : ModeImpl St} {J : ModeImpl Gcm.St} (h : ImplSim I J) {s : St} {t : Gcm.St} (hs : StSim s t) (m : Mem)
    (o i n : Nat) : OutSim OM (modeBulk 16 I s m o i n) (modeBulk 16 J t m o i n) := by
  unfold modeBulk
  refine OutSim.bind (h.upd _ _ _ _ _ _ hs) ?_
  rintro ⟨s, m⟩ ⟨t, m'⟩ ⟨a, e⟩
  dsimp only at *
  subst e
  exact ⟨⟨rfl, a⟩, rfl⟩

theorem sim_modeUpdate {I : ModeImpl St} {J : ModeImpl Gcm.St} (h : ImplSim I J) {a : ModeObj St} {b : ModeObj Gcm.St}
    (hs : MSim StSim a b) (m : Mem) (o i n outl : Nat) :
    OutSim OM (modeUpdate 16 I a m o i n outl) (modeUpdate 16 J b m o i n outl) := by
  unfold modeUpdate
  rw [hs.1]
  split
  · exact ⟨hs, rfl⟩
  · split
    · refine OutSim.bind (sim_bulk h hs.2 m o i n) ?_
      rintro ⟨x, m, l⟩ ⟨y, m', l'⟩ ⟨e1, e2⟩
      dsimp only at *
      cases e2
      exact ⟨e1, rfl⟩
    · dsimp only
      generalize (if 16 - b.buf.length > n then n else 16 - b.buf.length) = size
      split
      · refine OutSim.bind (h.upd _ _ _ _ _ _ hs.2) ?_
        rintro ⟨s, m⟩ ⟨t, m'⟩ ⟨a, e⟩
        dsimp only at *
        subst e
        refine OutSim.bind (sim_bulk h a m _ _ _) ?_
        rintro ⟨x, m, l⟩ ⟨y, m', l'⟩ ⟨e1, e2⟩
        dsimp only at *
        cases e2
        exact ⟨e1, rfl⟩
      · exact ⟨⟨rfl, hs.2⟩, rfl⟩

theorem sim_modeFinal {I : ModeImpl St} {J : ModeImpl Gcm.St} (h : ImplSim I J) {a : ModeObj St} {b : ModeObj Gcm.St}
    (hs : MSim StSim a b) (m : Mem) (o i n outl : Nat) :
    OutSim OM (modeFinal 16 I a m o i n outl) (modeFinal 16 J b m o i n outl) := by
  unfold modeFinal
  refine OutSim.bind (sim_modeUpdate h hs m o i n outl) ?_
  rintro ⟨x, m, l⟩ ⟨y, m', l'⟩ ⟨e1, e2⟩
  dsimp only at *
  cases e2
  rw [e1.1]
  refine OutSim.bind (h.fin _ _ _ _ _ e1.2) ?_
  rintro ⟨s, m⟩ ⟨t, m'⟩ ⟨a, e⟩
  dsimp only at *
  subst e
  exact ⟨⟨rfl, a⟩, rfl⟩

end Verif.GcmPclmul
