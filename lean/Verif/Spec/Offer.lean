import Verif.Spec.Pledge
/-!
# Specification: offers to sell coins for payments
-/
namespace Verif.Spec
open Verif

/-- The calls with which a seller writes an offer: the coins, then the payment asked for each, in the same order. -/
def offerCalls (deals : List (WalletCoin × Call)) : List Call := coinCalls (deals.map (·.1)) ++ deals.map (·.2)

end Verif.Spec
