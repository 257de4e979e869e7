import Verif.Model.Page
/-
Model of `CompressedDataPage::select_rows` (`src/page/mod.rs`).
-/
namespace Pq

/-- `src/page/mod.rs:113-116` `select_rows`. -/
def CompressedDataPage.selectRows (p : CompressedDataPage) (selectedRows : List Interval) : CompressedDataPage :=
  { p with selectedRows := some selectedRows }

end Pq
