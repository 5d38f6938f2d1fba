import Verif.Lemmas.Messages
import Verif.Props.Cid
import Verif.Model.Dagpb

/-! Property theorems for IPFS DAG nodes and directories. -/
namespace Ngfs.Dagpb
open Protobuf Varint Spec Cid

/-- A link that is a value of the Rust type: a content identifier and, if there is one, a 64-bit size. -/
def ValidLink (l : PBLink) : Prop := ValidCid l.hash ∧ ∀ n, l.tsize = some n → n < 2 ^ 64

def linkFields (l : PBLink) : List (Nat × FieldData) :=
  [(1, .bytes l.hash.toBytes)] ++ (match l.name with | some s => [(2, .bytes (utf8Encode s))] | none => [])
    ++ (match l.tsize with | some n => [(3, .varInt (encodeU64 n))] | none => [])

private theorem link_toPb (l : PBLink) : l.toPb = .ok (encFields (linkFields l)) := by
  obtain ⟨h, n, t⟩ := l
  cases n <;> cases t <;>
    simp [PBLink.toPb, linkFields, writeBytes_ok, writeString_ok, writeUint64_ok, bind, Except.bind]

private theorem linkStep_mk (s : LinkState) (o : Nat) (f) : linkStep s (mkRef o f) = linkStep s (mkRef 0 f) := rfl

private theorem link_shape (l : PBLink) : ∀ f ∈ linkFields l, WFShape f := by
  obtain ⟨h, n, t⟩ := l
  cases n <;> cases t <;> simp [linkFields]

private theorem link_round_trip (l : PBLink) (h : ValidLink l) (hlen : (encFields (linkFields l)).length < 2 ^ 64) :
    PBLink.fromPb (encFields (linkFields l)) = .ok l := by
  have hc : Cid.fromBytes l.hash.toBytes = .ok l.hash := by
    apply C15_bytes_round_trip _ h.1
    have h1 := encFields_length_ge (l := linkFields l) (f := (1, .bytes l.hash.toBytes)) (by simp [linkFields])
    have h2 := encField_length_ge (1, .bytes l.hash.toBytes) _ rfl
    omega
  rw [PBLink.fromPb, parse_encFields _ _ _ (link_shape l) hlen linkStep_mk]
  obtain ⟨hash, n, t⟩ := l
  obtain ⟨_, ht⟩ := h
  simp only at ht hc
  cases n <;> cases t <;>
    simp_all [linkFields, linkStep, mkRef, toBytes_enc, toStr_enc, toUint64_enc, ok?_ok, bind, Except.bind, pure, Except.pure, okOr]

/-- **C09**, links: a link serialises without panicking, and what is written parses to the same link. -/
theorem C09_link_round_trip (l : PBLink) (h : ValidLink l) :
    ∃ out, l.toPb = .ok out ∧ (out.length < 2 ^ 64 → PBLink.fromPb out = .ok l) :=
  ⟨_, link_toPb l, link_round_trip l h⟩

private def nodeFields (n : PBNode) : List (Nat × FieldData) :=
  n.links.map (fun l => (2, .bytes (encFields (linkFields l)))) ++
    (match n.bytes with | some b => [(1, .bytes b)] | none => [])

private theorem writeLinks_ok (w : Bytes) (ls : List PBLink) :
    writeLinks w ls = .ok (w ++ encFields (ls.map fun l => (2, .bytes (encFields (linkFields l))))) := by
  induction ls generalizing w with
  | nil => simp [writeLinks]
  | cons l ls ih => simp [writeLinks, link_toPb, writeBytes_ok, ih, bind, Except.bind]

private theorem node_toPb (n : PBNode) : n.toPb = .ok (encFields (nodeFields n)) := by
  obtain ⟨ls, b⟩ := n
  cases b <;> simp [PBNode.toPb, writeLinks_ok, nodeFields, writeBytes_ok, bind, Except.bind]

private theorem nodeStep_mk (s : PBNode) (o : Nat) (f) : nodeStep s (mkRef o f) = nodeStep s (mkRef 0 f) := rfl

private theorem node_fold (ls acc : List PBLink) (b : Option Bytes) (h : ∀ l ∈ ls, ValidLink l)
    (hlen : ∀ l ∈ ls, (encFields (linkFields l)).length < 2 ^ 64) :
    (ls.map fun l => ((2 : Nat), FieldData.bytes (encFields (linkFields l)))).foldlM
      (fun s f => nodeStep s (mkRef 0 f)) ⟨acc, b⟩ = .ok ⟨acc ++ ls, b⟩ := by
  induction ls generalizing acc with
  | nil => simp [pure, Except.pure]
  | cons l ls ih =>
    have := link_round_trip l (h l (by simp)) (hlen l (by simp))
    have hs : nodeStep ⟨acc, b⟩ (mkRef 0 (2, .bytes (encFields (linkFields l)))) = .ok ⟨acc ++ [l], b⟩ := by
      simp [nodeStep, mkRef, toBytes_enc, ok?_ok, bind, Except.bind, this]
    simp only [List.map_cons, List.foldlM_cons, hs, bind, Except.bind]
    have := ih (acc ++ [l]) (fun l hl => h l (by simp [hl])) (fun l hl => hlen l (by simp [hl]))
    simpa using this

/-- **C09**: a node serialises without panicking, and what is written parses to the same node: the same links in the
same order with the same identifiers, names and sizes, and the same data; absent and empty stay distinct. -/
theorem C09_node_round_trip (n : PBNode) (h : ∀ l ∈ n.links, ValidLink l) :
    ∃ out, n.toPb = .ok out ∧ (out.length < 2 ^ 64 → PBNode.fromPb out = .ok n) := by
  refine ⟨_, node_toPb n, fun hlen => ?_⟩
  by_cases hemp : encFields (nodeFields n) = []
  · have hnil : nodeFields n = [] := by
      by_contra hne
      obtain ⟨f, l, hfl⟩ := List.exists_cons_of_ne_nil hne
      rw [hfl] at hemp
      simp [encFields, encField, encode_ne_nil] at hemp
    obtain ⟨ls, b⟩ := n
    simp only [nodeFields, List.append_eq_nil_iff, List.map_eq_nil_iff] at hnil
    obtain ⟨rfl, hb⟩ := hnil
    cases b with
    | some b => cases hb
    | none => simp [nodeFields, PBNode.fromPb]
  · rw [PBNode.fromPb, if_neg (by simpa using hemp)]
    have hshape : ∀ f ∈ nodeFields n, WFShape f := by
      obtain ⟨ls, b⟩ := n
      intro f hf
      cases b <;> simp only [nodeFields, List.append_nil, List.mem_append, List.mem_map, List.mem_singleton] at hf
      · obtain ⟨l, _, rfl⟩ := hf; simp
      · rcases hf with ⟨l, _, rfl⟩ | rfl <;> simp
    rw [parse_encFields _ _ _ hshape hlen nodeStep_mk]
    have hl : ∀ l ∈ n.links, (encFields (linkFields l)).length < 2 ^ 64 := by
      intro l hl
      have h1 := encFields_length_ge (l := nodeFields n) (f := (2, .bytes (encFields (linkFields l))))
        (by simp only [nodeFields, List.mem_append, List.mem_map]; exact .inl ⟨l, hl, rfl⟩)
      have h2 := encField_length_ge (2, .bytes (encFields (linkFields l))) _ rfl
      omega
    rw [nodeFields, List.foldlM_append, node_fold n.links [] none h hl]
    obtain ⟨ls, b⟩ := n
    cases b <;> simp [bind, Except.bind, nodeStep, mkRef, toBytes_enc, ok?_ok, pure, Except.pure]

/-- Serialisation is injective: two nodes with the same bytes are the same node. -/
theorem C09_node_injective (m n : PBNode) (hm : ∀ l ∈ m.links, ValidLink l) (hn : ∀ l ∈ n.links, ValidLink l)
    (out : Bytes) (hlen : out.length < 2 ^ 64) (h1 : m.toPb = .ok out) (h2 : n.toPb = .ok out) : m = n := by
  obtain ⟨o1, e1, r1⟩ := C09_node_round_trip m hm
  obtain ⟨o2, e2, r2⟩ := C09_node_round_trip n hn
  rw [h1] at e1; rw [h2] at e2
  cases e1; cases e2
  have := (r1 hlen).symm.trans (r2 hlen)
  exact Except.ok.inj this

private theorem link_valid {bs : Bytes} {l : PBLink} (hb : bs.length < 2 ^ 63) (h : PBLink.fromPb bs = .ok l) :
    ValidLink l := by
  simp only [PBLink.fromPb] at h
  cases hf : forFields linkStep {} (Reader.new bs) with
  | error e => simp [hf, bind, Except.bind] at h
  | ok s =>
    obtain ⟨fs, hm, hfold⟩ := forFields_ok _ _ _ _ (by simp [Reader.new]) hf
    simp only [Reader.new, List.drop_zero] at hm
    have inv : ∀ (fs : List FieldRef) (s t : LinkState),
        ((∀ n, s.tsize = some n → n < 2 ^ 64) ∧ ∀ b, s.hash = some b → b.length < 2 ^ 63) →
        (∀ f ∈ fs, ∀ b, f.data = .bytes b → b.length < 2 ^ 63) →
        fs.foldlM linkStep s = .ok t →
        (∀ n, t.tsize = some n → n < 2 ^ 64) ∧ ∀ b, t.hash = some b → b.length < 2 ^ 63 := by
      intro fs
      induction fs with
      | nil => intro s t hs _ h; simp only [List.foldlM_nil, pure, Except.pure, Except.ok.injEq] at h; exact h ▸ hs
      | cons f fs ih =>
        intro s t hs hl h
        rw [List.foldlM_cons] at h
        cases hst : linkStep s f with
        | error e => simp [hst, bind, Except.bind] at h
        | ok u =>
          simp only [hst, bind, Except.bind] at h
          refine ih u t ?_ (fun g hg => hl g (by simp [hg])) h
          have hfl := hl f (by simp)
          unfold linkStep at hst
          split at hst
          · split at hst
            · cases hst
            · cases hd : ok? f.data.toBytes with
              | error e => simp [hd, bind, Except.bind] at hst
              | ok b =>
                simp only [hd, bind, Except.bind, Except.ok.injEq] at hst; subst hst
                refine ⟨hs.1, fun b' hb' => ?_⟩
                cases hb'
                exact hfl b ((toBytes_iff _ _).mp hd)
          · split at hst
            · cases hst
            · cases hd : ok? f.data.toStr with
              | error e => simp [hd, bind, Except.bind] at hst
              | ok b => simp only [hd, bind, Except.bind, Except.ok.injEq] at hst; subst hst; exact hs
          · split at hst
            · cases hst
            · cases hd : ok? f.data.toUint64 with
              | error e => simp [hd, bind, Except.bind] at hst
              | ok b =>
                simp only [hd, bind, Except.bind, Except.ok.injEq] at hst; subst hst
                refine ⟨fun n hn => ?_, hs.2⟩
                cases hn
                obtain ⟨v, _, hv⟩ := (toUint64_iff _ _).mp hd
                exact hv.2.2.2
          · cases hst; exact hs
    have hlens : ∀ f ∈ fs, ∀ b, f.data = .bytes b → b.length < 2 ^ 63 := by
      intro f hf b hb'
      have : b.length ≤ bs.length := message_bytes_le hm f hf b hb'
      omega
    have := inv fs {} s (by simp) hlens hfold
    simp only [hf, bind, Except.bind] at h
    cases hh : s.hash with
    | none => simp [hh, okOr] at h
    | some hb =>
      simp only [hh, okOr] at h
      split at h
      · rename_i c hc
        cases h
        exact ⟨(C15_parsed_is_valid hb c (this.2 _ hh) hc).1, this.1⟩
      · cases h

/-- **C09**, from the other side: whatever bytes a node was parsed from, the parsed node is a valid one, so writing it
out and parsing it again gives the same node. -/
theorem C09_parsed_node_stable (bs : Bytes) (n : PBNode) (hb : bs.length < 2 ^ 63) (h : PBNode.fromPb bs = .ok n) :
    (∀ l ∈ n.links, ValidLink l) ∧
    ∃ out, n.toPb = .ok out ∧ (out.length < 2 ^ 64 → PBNode.fromPb out = .ok n) := by
  have key : ∀ l ∈ n.links, ValidLink l := by
    simp only [PBNode.fromPb] at h
    split at h
    · cases h; simp
    · obtain ⟨fs, hm, hfold⟩ := forFields_ok _ _ _ _ (by simp [Reader.new]) h
      simp only [Reader.new, List.drop_zero] at hm
      have inv : ∀ (fs : List FieldRef) (s t : PBNode), (∀ l ∈ s.links, ValidLink l) →
          (∀ f ∈ fs, ∀ b, f.data = .bytes b → b.length < 2 ^ 63) →
          fs.foldlM nodeStep s = .ok t → ∀ l ∈ t.links, ValidLink l := by
        intro fs
        induction fs with
        | nil => intro s t hs _ h; simp only [List.foldlM_nil, pure, Except.pure, Except.ok.injEq] at h; exact h ▸ hs
        | cons f fs ih =>
          intro s t hs hl h
          rw [List.foldlM_cons] at h
          cases hst : nodeStep s f with
          | error e => simp [hst, bind, Except.bind] at h
          | ok u =>
            simp only [hst, bind, Except.bind] at h
            refine ih u t ?_ (fun g hg => hl g (by simp [hg])) h
            have hfl := hl f (by simp)
            unfold nodeStep at hst
            split at hst
            · cases hd : ok? f.data.toBytes with
              | error e => simp [hd, bind, Except.bind] at hst
              | ok b =>
                cases hp : PBLink.fromPb b with
                | error e => simp [hd, hp, bind, Except.bind] at hst
                | ok l =>
                  simp only [hd, hp, bind, Except.bind, Except.ok.injEq] at hst; subst hst
                  intro l' hl'
                  simp only [List.mem_append, List.mem_singleton] at hl'
                  rcases hl' with hl' | rfl
                  · exact hs _ hl'
                  · exact link_valid (hfl b ((toBytes_iff _ _).mp hd)) hp
            · split at hst
              · cases hst
              · cases hd : ok? f.data.toBytes with
                | error e => simp [hd, bind, Except.bind] at hst
                | ok b => simp only [hd, bind, Except.bind, Except.ok.injEq] at hst; subst hst; exact hs
            · cases hst; exact hs
      refine inv fs _ n (by simp) (fun f hf b hb' => ?_) hfold
      have : b.length ≤ bs.length := message_bytes_le hm f hf b hb'
      omega
  exact ⟨key, C09_node_round_trip n key⟩

/-! ### C42: directories -/

/-- What a directory link must have: a non-empty name and a size. -/
def Listable (l : PBLink) : Prop := (∃ s, l.name = some s ∧ s ≠ "") ∧ ∃ n, l.tsize = some n

/-- The entry that shows a link. -/
def Shows (l : PBLink) (e : DirectoryEntry) : Prop := l.hash = e.cid ∧ l.name = some e.name ∧ l.tsize = some e.tsize

private theorem dirLoop_iff (links : List PBLink) (i : Nat) (es : List DirectoryEntry) (names : List String)
    (out : List DirectoryEntry) :
    dirLoop i es names links = .ok out ↔
      ∃ new, out = es ++ new ∧ List.Forall₂ Shows links new ∧ (new.map (·.name)).Nodup ∧
        (∀ e ∈ new, e.name ≠ "" ∧ e.name ∉ names) := by
  induction links generalizing i es names with
  | nil =>
    simp only [dirLoop, Except.ok.injEq, List.forall₂_nil_left_iff]
    constructor
    · rintro rfl; exact ⟨[], by simp⟩
    · rintro ⟨new, rfl, rfl, _⟩; simp
  | cons l ls ih =>
    rw [dirLoop]
    obtain ⟨hash, name, tsize⟩ := l
    cases name with
    | none =>
      simp only [reduceCtorEq, false_iff]
      rintro ⟨new, -, h, -⟩
      cases h with | cons h _ => exact absurd h.2.1 (by simp)
    | some name =>
      simp only
      by_cases he : name.isEmpty = true
      · rw [if_pos he]
        simp only [reduceCtorEq, false_iff]
        rintro ⟨new, -, h, -, hn⟩
        cases h with
        | @cons _ e _ _ h _ =>
          have h1 := h.2.1
          simp only [Option.some.injEq] at h1
          exact (hn e (by simp)).1 (by rw [← h1]; exact String.isEmpty_iff.mp he)
      · rw [if_neg he]
        by_cases hc : names.contains name = true
        · rw [if_pos hc]
          simp only [reduceCtorEq, false_iff]
          rintro ⟨new, -, h, -, hn⟩
          cases h with
          | @cons _ e _ _ h _ =>
            have h1 := h.2.1
            simp only [Option.some.injEq] at h1
            exact (hn e (by simp)).2 (by rw [← h1]; simpa using hc)
        · rw [if_neg hc]
          cases tsize with
          | none =>
            simp only [reduceCtorEq, false_iff]
            rintro ⟨new, -, h, -⟩
            cases h with | cons h _ => exact absurd h.2.2 (by simp)
          | some size =>
            simp only [ih]
            constructor
            · rintro ⟨new, rfl, h1, h2, h3⟩
              refine ⟨⟨hash, name, size⟩ :: new, by simp, .cons ⟨rfl, rfl, rfl⟩ h1, ?_, ?_⟩
              · simp only [List.map_cons, List.nodup_cons, h2, and_true, List.mem_map, not_exists, not_and]
                intro e he' hen
                exact (h3 e he').2 (by simp [hen])
              · intro e he'
                rcases List.mem_cons.mp he' with rfl | he'
                · exact ⟨by simpa using he, by simpa using hc⟩
                · exact ⟨(h3 e he').1, fun hm => (h3 e he').2 (by simp [hm])⟩
            · rintro ⟨new, rfl, h1, h2, h3⟩
              cases h1 with
              | @cons _ e _ new h h1 =>
                obtain ⟨a, b, c⟩ := h
                simp only [Option.some.injEq] at a b c
                obtain ⟨ec, en, et⟩ := e
                simp only at a b c
                subst a b c
                simp only [List.map_cons, List.nodup_cons] at h2
                refine ⟨new, by simp, h1, h2.2, fun e he' => ⟨(h3 e (by simp [he'])).1, ?_⟩⟩
                simp only [List.mem_append, List.mem_singleton, not_or]
                exact ⟨(h3 e (by simp [he'])).2, fun hen => h2.1 (by rw [← hen]; exact List.mem_map_of_mem he')⟩

private theorem forall₂_mem {ls : List PBLink} {es : List DirectoryEntry} (h : List.Forall₂ Shows ls es)
    {l : PBLink} (hl : l ∈ ls) : ∃ e ∈ es, Shows l e := by
  induction h with
  | nil => cases hl
  | @cons l' e ls es h _ ih =>
    rcases List.mem_cons.mp hl with rfl | hl
    · exact ⟨e, by simp, h⟩
    · obtain ⟨k, hk, hs⟩ := ih hl
      exact ⟨k, by simp [hk], hs⟩

/-- **C42**: a node is listed as a directory exactly when its links all have a non-empty name and a size and no two
share a name; the listing then has exactly one entry per link, in order, showing its identifier, name and size. -/
theorem C42_listing_exact (node : PBNode) (entries : List DirectoryEntry) :
    directoryFromDagpb node = .ok entries ↔
      List.Forall₂ Shows node.links entries ∧ (entries.map (·.name)).Nodup ∧ ∀ e ∈ entries, e.name ≠ "" := by
  rw [directoryFromDagpb, dirLoop_iff]
  simp

/-- **C42**, acceptance in terms of the node alone. -/
theorem C42_listed_iff (node : PBNode) :
    (∃ entries, directoryFromDagpb node = .ok entries) ↔
      (∀ l ∈ node.links, Listable l) ∧ (node.links.map (·.name)).Nodup := by
  simp only [C42_listing_exact]
  have names : ∀ (ls : List PBLink) (es : List DirectoryEntry), List.Forall₂ Shows ls es →
      ls.map (·.name) = (es.map (·.name)).map some := by
    intro ls es h
    induction h with
    | nil => rfl
    | cons h _ ih => simp only [List.map_cons, ih, h.2.1]
  constructor
  · rintro ⟨es, h1, h2, h3⟩
    refine ⟨?_, by rw [names _ _ h1]; exact h2.map (Option.some_injective _)⟩
    clear h2
    generalize node.links = ls at h1
    induction h1 with
    | nil => simp
    | @cons l e ls es h _ ih =>
      intro l' hl'
      rcases List.mem_cons.mp hl' with rfl | hl'
      · exact ⟨⟨_, h.2.1, h3 e (by simp)⟩, _, h.2.2⟩
      · exact ih (fun e he => h3 e (by simp [he])) l' hl'
  · rintro ⟨h1, h2⟩
    have : ∃ es, List.Forall₂ Shows node.links es ∧ ∀ e ∈ es, e.name ≠ "" := by
      clear h2
      generalize node.links = ls at h1
      induction ls with
      | nil => exact ⟨[], .nil, by simp⟩
      | cons l ls ih =>
        obtain ⟨es, a, b⟩ := ih (fun l hl => h1 l (by simp [hl]))
        obtain ⟨⟨s, hs, hne⟩, n, hn⟩ := h1 l (by simp)
        refine ⟨⟨l.hash, s, n⟩ :: es, .cons ⟨rfl, hs, hn⟩ a, ?_⟩
        intro e he
        rcases List.mem_cons.mp he with rfl | he
        · exact hne
        · exact b e he
    obtain ⟨es, a, b⟩ := this
    refine ⟨es, a, ?_, b⟩
    rw [names _ _ a] at h2
    exact List.Nodup.of_map _ h2

/-- **C42**, lookup: in a listing, the entry of a name is unique, and shows the only link of that name. -/
theorem C42_lookup (node : PBNode) (entries : List DirectoryEntry) (h : directoryFromDagpb node = .ok entries)
    (name : String) :
    (∀ l ∈ node.links, l.name = some name → ∃! e, e ∈ entries ∧ e.name = name ∧ Shows l e) ∧
    (∀ e ∈ entries, e.name = name → ∃ l ∈ node.links, Shows l e ∧ ∀ l' ∈ node.links, l'.name = some name → l' = l) := by
  obtain ⟨h1, h2, h3⟩ := (C42_listing_exact _ _).mp h
  clear h h3
  generalize node.links = ls at h1
  induction h1 with
  | nil => simp
  | @cons l e ls es hs h1 ih =>
    simp only [List.map_cons, List.nodup_cons] at h2
    obtain ⟨ih1, ih2⟩ := ih h2.2
    have other : ∀ l' ∈ ls, l'.name ≠ some e.name := by
      intro l' hl' hn
      obtain ⟨k, hk1, hk2⟩ := forall₂_mem h1 hl'
      exact h2.1 (List.mem_map.mpr ⟨k, hk1, by simpa using (hk2.2.1.symm.trans hn)⟩)
    constructor
    · intro l' hl' hn
      rcases List.mem_cons.mp hl' with rfl | hl'
      · have hen : e.name = name := by simpa using hs.2.1.symm.trans hn
        refine ⟨e, ⟨by simp, hen, hs⟩, ?_⟩
        rintro k ⟨hk, hkn, _⟩
        rcases List.mem_cons.mp hk with rfl | hk
        · rfl
        · exact absurd (List.mem_map.mpr ⟨k, hk, hkn.trans hen.symm⟩) h2.1
      · have hne : e.name ≠ name := fun h => other l' hl' (by rw [h, hn])
        obtain ⟨k, ⟨hk1, hk2, hk3⟩, huniq⟩ := ih1 l' hl' hn
        refine ⟨k, ⟨by simp [hk1], hk2, hk3⟩, ?_⟩
        rintro k' ⟨hk', hkn', hks'⟩
        rcases List.mem_cons.mp hk' with rfl | hk'
        · exact absurd hkn' hne
        · exact huniq k' ⟨hk', hkn', hks'⟩
    · intro k hk hkn
      rcases List.mem_cons.mp hk with rfl | hk
      · refine ⟨l, by simp, hs, ?_⟩
        intro l' hl' hn
        rcases List.mem_cons.mp hl' with rfl | hl'
        · rfl
        · exact absurd (hkn ▸ hn) (other l' hl')
      · obtain ⟨m, hm1, hm2, hm3⟩ := ih2 k hk hkn
        refine ⟨m, by simp [hm1], hm2, ?_⟩
        intro l' hl' hn
        rcases List.mem_cons.mp hl' with rfl | hl'
        · have : e.name = name := by simpa using hs.2.1.symm.trans hn
          exact absurd (List.mem_map.mpr ⟨k, hk, hkn.trans this.symm⟩) h2.1
        · exact hm3 l' hl' hn

private theorem dirLoop_err (links : List PBLink) (i : Nat) (es : List DirectoryEntry) (names : List String) (e : FsError)
    (h : dirLoop i es names links = .error e) :
    ∃ pre l post, links = pre ++ l :: post ∧
      ((e = .entryMissingFilename (i + pre.length) ∧ (l.name = none ∨ l.name = some "")) ∨
       (e = .entryMissingSize (i + pre.length) ∧ l.tsize = none) ∨
       (∃ name, e = .entryDuplicateFilename name ∧ l.name = some name ∧
          (name ∈ names ∨ ∃ l' ∈ pre, l'.name = some name))) := by
  induction links generalizing i es names with
  | nil => simp [dirLoop] at h
  | cons l ls ih =>
    rw [dirLoop] at h
    obtain ⟨hash, name, tsize⟩ := l
    cases name with
    | none => cases h; exact ⟨[], _, ls, rfl, .inl ⟨by simp, by simp⟩⟩
    | some name =>
      simp only at h
      split at h
      · rename_i he
        cases h; exact ⟨[], _, ls, rfl, .inl ⟨by simp, .inr (by simp [String.isEmpty_iff.mp he])⟩⟩
      · split at h
        · rename_i hc
          cases h; exact ⟨[], _, ls, rfl, .inr (.inr ⟨name, rfl, rfl, .inl (by simpa using hc)⟩)⟩
        · split at h
          · cases h; exact ⟨[], _, ls, rfl, .inr (.inl ⟨by simp, rfl⟩)⟩
          · rename_i size
            obtain ⟨pre, l', post, rfl, hh⟩ := ih _ _ _ h
            refine ⟨⟨hash, some name, some size⟩ :: pre, l', post, by simp, ?_⟩
            have hi : i + 1 + pre.length = i + (pre.length + 1) := by omega
            simp only [List.length_cons, ← hi]
            rcases hh with hh | hh | ⟨nm, h1, h2, h3⟩
            · exact .inl hh
            · exact .inr (.inl hh)
            · refine .inr (.inr ⟨nm, h1, h2, ?_⟩)
              rcases h3 with h3 | ⟨k, hk, hkn⟩
              · rcases List.mem_append.mp h3 with h3 | h3
                · exact .inl h3
                · exact .inr ⟨_, List.mem_cons_self, by simpa using (List.mem_singleton.mp h3).symm⟩
              · exact .inr ⟨k, by simp [hk], hkn⟩

/-- **C42**, refusals: the reported reason is true of the link at the reported position. -/
theorem C42_refusal_reason (node : PBNode) (e : FsError) (h : directoryFromDagpb node = .error e) :
    ∃ pre l post, node.links = pre ++ l :: post ∧
      ((e = .entryMissingFilename pre.length ∧ (l.name = none ∨ l.name = some "")) ∨
       (e = .entryMissingSize pre.length ∧ l.tsize = none) ∨
       (∃ name, e = .entryDuplicateFilename name ∧ l.name = some name ∧ ∃ l' ∈ pre, l'.name = some name)) := by
  have := dirLoop_err _ _ _ _ _ h
  simpa using this

/-- **C42**, from bytes: parsing a block yields a directory listing only if the block is a DAG node whose data is a
UnixFS record of type directory, and then the listing is that of the node. -/
theorem C42_from_bytes (data : Bytes) (entries : List DirectoryEntry) :
    nodeFromDagpbData data = .ok entries ↔
      ∃ node bytes d, PBNode.fromPb data = .ok node ∧ node.bytes = some bytes ∧ Data.fromPb bytes = .ok d ∧
        d.type_ = .directory ∧ directoryFromDagpb node = .ok entries := by
  unfold nodeFromDagpbData
  cases h1 : PBNode.fromPb data with
  | error e => simp
  | ok node =>
    cases h2 : node.bytes with
    | none => simp [h2]
    | some bytes =>
      cases h3 : Data.fromPb bytes with
      | error e => simp [h2, h3]
      | ok d => cases h4 : d.type_ <;> simp [h2, h3, h4]

private def exCid : CID := ⟨.v0, .dagPB, .sha2256, List.replicate 32 7⟩
private def exNode : PBNode := ⟨[⟨exCid, some "a", some 5⟩, ⟨exCid, some "b", some 0⟩], some [8, 1]⟩

example : ∀ l ∈ exNode.links, ValidLink l := by
  intro l hl
  simp only [exNode, List.mem_cons, List.not_mem_nil, or_false] at hl
  rcases hl with rfl | rfl <;> simp [ValidLink, ValidCid, exCid]

example : directoryFromDagpb exNode = .ok [⟨exCid, "a", 5⟩, ⟨exCid, "b", 0⟩] := by decide +kernel
example : directoryFromDagpb ⟨[⟨exCid, some "a", some 5⟩, ⟨exCid, some "a", some 6⟩], none⟩ =
    .error (.entryDuplicateFilename "a") := by decide +kernel
example : ∃ out, exNode.toPb = .ok out ∧ nodeFromDagpbData out = .ok [⟨exCid, "a", 5⟩, ⟨exCid, "b", 0⟩] := by
  obtain ⟨out, h1, h2⟩ := C09_node_round_trip exNode (by
    intro l hl
    simp only [exNode, List.mem_cons, List.not_mem_nil, or_false] at hl
    rcases hl with rfl | rfl <;> simp [ValidLink, ValidCid, exCid])
  refine ⟨out, h1, ?_⟩
  have hl : out.length < 2 ^ 64 := by
    have : exNode.toPb.toOption.map (fun o => decide (o.length < 2 ^ 64)) = some true := by decide +kernel
    rw [h1] at this; simpa [Except.toOption] using this
  rw [C42_from_bytes]
  refine ⟨exNode, [8, 1], ⟨.directory, none, none, [], none, none, none, none⟩, h2 hl, rfl, ?_, rfl, by decide +kernel⟩
  rw [Data.fromPb]
  have : forFields dataStep {} (Reader.new [8, 1]) = .ok { type_ := some .directory } := by
    have h := parse_encFields dataStep {} [(1, .varInt (encodeU64 1))] (by simp) (by decide +kernel) (fun _ _ _ => rfl)
    have e : encFields [(1, FieldData.varInt (encodeU64 1))] = [8, 1] := by decide +kernel
    rw [e] at h
    rw [h]
    decide +kernel
  rw [this]; rfl

end Ngfs.Dagpb
