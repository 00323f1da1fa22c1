import Verif.Object.Spec

/-! # Specification: the pages of a file -/

namespace Verif.Object.Spec
open Verif

/-- The file with header page `h` has the allocation tables `tabs` and the data pages
`datas`: the header lists the tables, the tables list the data pages (1023 each) and say
how many they list, and no page is used twice. -/
structure File80 (pages : List Bytes) (h : Nat) (tabs datas : List Nat) : Prop where
  root : ∃ hp, pages[h]? = some hp ∧ ∀ k (hk : k < tabs.length), word hp (24 + 4 * k) = some tabs[k]
  entry : ∀ k (hk : k < datas.length), ∃ t tp, tabs[k / 1023]? = some t ∧ pages[t]? = some tp ∧
    word tp (4 + 4 * (k % 1023)) = some datas[k]
  counts : ∀ (k t : Nat), tabs[k]? = some t → ∃ tp, pages[t]? = some tp ∧
    word tp 0 = some (min 1023 (datas.length - 1023 * k))
  distinct : (h :: (tabs ++ datas)).Nodup

/-- The file of format 8.3.8 with header page `h` has one level and the data pages `datas`: the
header lists them, they exist, and no page is used twice. -/
structure File838One (pages : List Bytes) (h : Nat) (datas : List Nat) : Prop where
  root : ∃ hp, pages[h]? = some hp ∧ ∀ k (hk : k < datas.length), word hp (24 + 4 * k) = some datas[k]
  present : ∀ q ∈ datas, q < pages.length
  distinct : (h :: datas).Nodup

/-- The file of format 8.3.8 with pages of `P` bytes and header page `h` has two levels, the
allocation tables `tabs` and the data pages `datas`: the header lists the tables, the tables
list the data pages (`P / 4` each), they exist, and no page is used twice. -/
structure File838Two (pages : List Bytes) (P h : Nat) (tabs datas : List Nat) : Prop where
  root : ∃ hp, pages[h]? = some hp ∧ ∀ k (hk : k < tabs.length), word hp (24 + 4 * k) = some tabs[k]
  entry : ∀ k (hk : k < datas.length), ∃ t tp, tabs[k / (P / 4)]? = some t ∧ pages[t]? = some tp ∧
    word tp (4 * (k % (P / 4))) = some datas[k]
  present : ∀ q ∈ tabs ++ datas, q < pages.length
  distinct : (h :: (tabs ++ datas)).Nodup

end Verif.Object.Spec
