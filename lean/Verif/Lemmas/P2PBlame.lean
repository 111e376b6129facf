import Verif.Lemmas.P2PStore
import Verif.Lemmas.P2PHist
import Verif.Lemmas.P2PHas
/-
Every block that is put into the storage came in a PIECE message.
-/

namespace Drip.P2P
open PeerWire Metainfo
open Storage (Fate World)

variable {cfg : Cfg} {may : May}

/-- The storage is what became of `w` by calls other than `New` in which only blocks with `Q` were put. -/
def Puts (cfg : Cfg) (w : World) (Q : Int → Int → Bytes → Prop) (s : State) : Prop := ∃ es : List (Storage.Event × List Fate), s.storage = Storage.run cfg.store es w ∧
  ∀ e ∈ es, e.1 ≠ .start ∧ ∀ i b d, e.1 = .put i b d → Q i b d

theorem srun_snoc (es : List (Storage.Event × List Fate)) (e : Storage.Event) (f : List Fate) : ∀ w, Storage.run cfg.store (es ++ [(e, f)]) w = Storage.step cfg.store (Storage.run cfg.store es w) e f := by
  induction es with
  | nil => intro w; rfl
  | cons e es ih => intro w; exact ih _

theorem Puts.more {w : World} {Q : Int → Int → Bytes → Prop} {s s' : State} (h : Puts cfg w Q s) (e : Storage.Event) (f : List Fate) (he : e ≠ .start) (hQ : ∀ i b d, e = .put i b d → Q i b d)
    (hs : s'.storage = Storage.step cfg.store s.storage e f) : Puts cfg w Q s' := by
  obtain ⟨es, h1, h2⟩ := h
  refine ⟨es ++ [(e, f)], by rw [hs, h1, srun_snoc], ?_⟩
  intro x hx
  rcases List.mem_append.1 hx with h | h
  · exact h2 x h
  · rw [List.mem_singleton.1 h]; exact ⟨he, hQ⟩

theorem Puts.smalls {w : World} {Q : Int → Int → Bytes → Prop} {s s' : State} (hQ : ∀ i b d, may.put i b d → Q i b d) (hs : Puts cfg w Q s) (h : Smalls cfg may s s') : Puts cfg w Q s' := by
  induction h with
  | refl => exact hs
  | tail _ h ih =>
    cases h with
    | storage e f h1 h2 h3 => exact ih.more e f h1 (fun i b d e => hQ i b d (h3 i b d e)) rfl
    | upload x c q d f h0 h1 h2 h3 h4 h5 => exact ih.more (.get q.index q.begin q.length) f (by simp) (fun i b d e => by cases e) rfl
    | _ => exact ih

/-- A PIECE message with this block has been received. -/
def Came (s : State) (i b : Int) (d : Bytes) : Prop := ∃ (x : Ref) (c : Conn), s.peers[x]? = some c ∧ ∃ m ∈ c.received, m.typ = PIECE ∧ i = m.index ∧ b = m.begin ∧ d = m.piece

theorem puts_run (w : World) (es : List (Event × Luck)) : Puts cfg w (Came (run cfg (init w) es)) (run cfg (init w) es) := by
  refine run_rec (cfg := cfg) (P := fun _ s => Puts cfg w (Came s) s) (init w) ⟨[], rfl, fun _ h => by cases h⟩ (fun es e ih => ?_) es
  have hi := inv_run (cfg := cfg) w es
  have hh := hist_run (cfg := cfg) w es
  have hsm := step_small (cfg := cfg) e hi.pendOK
  generalize run cfg (init w) es = s at *
  have grow : ∀ i b d, Came s i b d → Came (step cfg s e) i b d := by
    rintro i b d ⟨x, c, hc, m, hm, h⟩
    obtain ⟨c', hc', hg⟩ := hsm.grows hc
    obtain ⟨ms, e1⟩ := hg.received
    exact ⟨x, c', hc', m, by rw [e1]; exact List.mem_append_left _ hm, h⟩
  have ih' : Puts cfg w (Came (step cfg s e)) s := by
    obtain ⟨es, h1, h2⟩ := ih
    exact ⟨es, h1, fun x hx => ⟨(h2 x hx).1, fun i b d h => grow i b d ((h2 x hx).2 i b d h)⟩⟩
  refine ih'.smalls ?_ hsm
  rintro i b d ⟨x, c, m, _, hc, hp, ht, h⟩
  exact grow i b d ⟨x, c, hc, m, List.mem_of_getLast? ((hh x c hc).pending m hp), ht, h⟩

end Drip.P2P
