import Verif.Model.GcmHistPclmul
import Verif.Proofs.GcmPclmul
import Verif.Spec.GcmHist
/-! # Histories of GCM messages in the two builds, side by side -/
namespace Verif.GcmPclmul
open Verif Verif.GhashPclmul
open Verif.Gcm (GMsg)

/-- Related states, equal memories, the same verdict. -/
abbrev SMB (a : St × Mem × Bool) (b : Gcm.St × Mem × Bool) : Prop := StSim a.1 b.1 ∧ a.2 = b.2

/-- Related objects, equal memories, lengths and verdicts. -/
abbrev OMB (a : ModeObj St × Mem × Nat × Bool) (b : ModeObj Gcm.St × Mem × Nat × Bool) : Prop := MSim StSim a.1 b.1 ∧ a.2 = b.2

theorem sim_decFinX (C : BCipher) {s : St} {t : Gcm.St} (h : StSim s t) (m : Mem) (inp : List Byte) (o : Nat) :
    OutSim SMB (decFinX C s m inp o) (Gcm.decFinX C t m inp o) := by
  obtain ⟨h1, h2, h3, h4, h5, h6, h7⟩ := h
  unfold decFinX Gcm.decFinX
  refine OutSim.bind (R := SM) ?_ ?_
  · split
    · dsimp only
      rw [h1, h4, h7]
      split
      · trivial
      · refine OutSim.bind (sim_hashUpdate h3 _) fun x y hxy => ?_
        refine OutSim.bind (sim_hashUpdate hxy _) fun x y hxy => ?_
        refine OutSim.bind (osRefl _) ?_
        rintro a _ rfl
        exact ⟨⟨rfl, h2, hxy, rfl, h5, h6, rfl⟩, rfl⟩
    · exact ⟨⟨h1, h2, h3, h4, h5, h6, h7⟩, rfl⟩
  · rintro ⟨s, m⟩ ⟨t, m'⟩ ⟨⟨h1, h2, h3, h4, h5, h6, h7⟩, e⟩
    dsimp only at *
    subst e
    rw [h4, h5, h2, h6]
    refine OutSim.bind (sim_hashUpdate h3 _) fun x y hxy => ?_
    refine OutSim.bind (sim_hashFinal hxy _) fun x y hxy => ?_
    rw [hxy.2]
    exact ⟨⟨h1, rfl, hxy.1, rfl, rfl, rfl, rfl⟩, rfl⟩

theorem sim_encFinX (C : BCipher) {s : St} {t : Gcm.St} (h : StSim s t) (m : Mem) (inp : List Byte) (o : Nat) :
    OutSim SMB (encFinX C s m inp o) (Gcm.encFinX C t m inp o) := by
  unfold encFinX Gcm.encFinX
  refine OutSim.bind ((sim_enc C).fin s t m inp o h) ?_
  rintro ⟨s, m⟩ ⟨t, m'⟩ ⟨a, e⟩
  dsimp only at *
  subst e
  exact ⟨a, rfl⟩

/-- The implementation of an object whose `final_block` is not called. -/
theorem sim_updOnly {u : BlockFn St} {v : BlockFn Gcm.St}
    (h : ∀ s t m src o n, StSim s t → OutSim SM (u s m src o n) (v t m src o n)) :
    ImplSim ⟨u, fun _ _ _ _ => .ub⟩ ⟨v, fun _ _ _ _ => .ub⟩ := ⟨h, fun _ _ _ _ _ _ => trivial⟩

theorem sim_msgRunX {u : BlockFn St} {v : BlockFn Gcm.St} {f : St → Mem → List Byte → Nat → Outcome (St × Mem × Bool)}
    {g : Gcm.St → Mem → List Byte → Nat → Outcome (Gcm.St × Mem × Bool)}
    (hu : ∀ s t m src o n, StSim s t → OutSim SM (u s m src o n) (v t m src o n))
    (hf : ∀ s t m inp o, StSim s t → OutSim SMB (f s m inp o) (g t m inp o)) (last : Option Nat) (ns : List Nat) :
    ∀ (a : ModeObj St) (b : ModeObj Gcm.St) (m : Mem) (o i : Nat), MSim StSim a b →
      OutSim OMB (msgRunX u f last a m o i ns) (Gcm.msgRunX v g last b m o i ns) := by
  induction ns with
  | nil =>
    intro a b m o i hs
    unfold msgRunX Gcm.msgRunX
    cases last with
    | none => exact ⟨hs, rfl⟩
    | some n =>
      dsimp only
      refine OutSim.bind (R := OMB) ?_ ?_
      · unfold finalX Gcm.finalX
        refine OutSim.bind (sim_modeUpdate (sim_updOnly hu) hs m o i n 0) ?_
        rintro ⟨x, m, l⟩ ⟨y, m', l'⟩ ⟨e1, e2⟩
        dsimp only at *
        cases e2
        rw [e1.1]
        refine OutSim.bind (hf _ _ _ _ _ e1.2) ?_
        rintro ⟨s, m, r⟩ ⟨t, m', r'⟩ ⟨a, e⟩
        dsimp only at *
        cases e
        exact ⟨⟨rfl, a⟩, rfl⟩
      · rintro ⟨x, m, l, r⟩ ⟨y, m', l', r'⟩ ⟨e1, e2⟩
        dsimp only at *
        cases e2
        exact ⟨e1, rfl⟩
  | cons n ns ih =>
    intro a b m o i hs
    unfold msgRunX Gcm.msgRunX
    refine OutSim.bind (sim_modeUpdate (sim_updOnly hu) hs m o i n 0) ?_
    rintro ⟨x, m, l⟩ ⟨y, m', l'⟩ ⟨e1, e2⟩
    dsimp only at *
    cases e2
    exact ih _ _ _ _ _ e1

/-- Every message's cipher maps 16 octets to 16 octets. -/
def MsgsOk (as : List GMsg) : Prop := ∀ a ∈ as, ∀ x : List Byte, x.length = 16 → (a.E x).length = 16

theorem bind_eq {α β γ : Type} {R : α → β → Prop} {a : Outcome α} {b : Outcome β} {f : α → Outcome γ} {g : β → Outcome γ}
    (h : OutSim R a b) (hf : ∀ x y, R x y → f x = g y) : (a >>= f) = (b >>= g) := by
  cases a <;> cases b <;> first | exact h.elim | rfl | exact hf _ _ h

theorem encHist_eq (PAR : Nat) (as : List GMsg) : ∀ (a : ModeObj St) (b : ModeObj Gcm.St), MsgsOk as → MSim PreSim a b →
    encHist PAR a as = Gcm.encHist PAR b as := by
  induction as with
  | nil => intros; rfl
  | cons c as ih =>
    intro a b hk hs
    unfold encHist Gcm.encHist
    dsimp only
    refine bind_eq (sim_encInit (hk c List.mem_cons_self _ (List.length_replicate ..)) hs c.iv c.aad) fun x y hxy => ?_
    refine bind_eq (sim_msgRunX (sim_enc ⟨16, PAR, c.E, c.E⟩).upd
      (fun s t m inp o h => sim_encFinX ⟨16, PAR, c.E, c.E⟩ h m inp o) c.last c.ns x y c.m c.o c.i hxy) ?_
    rintro ⟨x, r⟩ ⟨y, r'⟩ ⟨e1, e2⟩
    dsimp only at *
    subst e2
    rw [ih x y (fun a ha => hk a (List.mem_cons_of_mem _ ha)) ⟨e1.1, e1.2.pre⟩, e1.2.2.2.2.2.2.1]

theorem decHist_eq (PAR : Nat) (as : List GMsg) : ∀ (a : ModeObj St) (b : ModeObj Gcm.St), MsgsOk as → MSim PreSim a b →
    decHist PAR a as = Gcm.decHist PAR b as := by
  induction as with
  | nil => intros; rfl
  | cons c as ih =>
    intro a b hk hs
    unfold decHist Gcm.decHist
    dsimp only
    refine bind_eq (sim_decInit (hk c List.mem_cons_self _ (List.length_replicate ..)) hs c.iv c.aad) fun x y hxy => ?_
    refine bind_eq (sim_msgRunX (sim_dec ⟨16, PAR, c.E, c.E⟩).upd
      (fun s t m inp o h => sim_decFinX ⟨16, PAR, c.E, c.E⟩ h m inp o) c.last c.ns _ (Gcm.setTag y c.tag) c.m c.o c.i
        ⟨hxy.1, hxy.2.1, hxy.2.2.1, hxy.2.2.2.1, hxy.2.2.2.2.1, hxy.2.2.2.2.2.1, rfl, hxy.2.2.2.2.2.2.2⟩) ?_
    rintro ⟨x, r⟩ ⟨y, r'⟩ ⟨e1, e2⟩
    dsimp only at *
    subst e2
    rw [ih x y (fun a ha => hk a (List.mem_cons_of_mem _ ha)) ⟨e1.1, e1.2.pre⟩]

/-- A table object that has what an object of the hardware build shows before `init`. -/
def twin (h : ModeObj St) : ModeObj Gcm.St := ⟨h.buf, ⟨[], [], ⟨h.st.hash.buf, ⟨[], (0, 0)⟩⟩, 0, 0, h.st.tag, h.st.stat⟩⟩

theorem twin_pre (h : ModeObj St) : MSim PreSim h (twin h) := ⟨rfl, rfl, rfl, rfl⟩

theorem ghistOk_msgs : ∀ (buf : List Byte) (as : List GMsg), Gcm.GHistOk buf as → MsgsOk as
  | _, [], _ => fun a ha => absurd ha List.not_mem_nil
  | _, a :: as, h => by
    intro b hb
    rcases List.mem_cons.mp hb with rfl | hb
    · exact h.1
    · exact ghistOk_msgs _ as h.2.2.2.2 b hb

end Verif.GcmPclmul
