import Verif.Model.ConfigMany

/-!
# The configuration for one path

`get_config_one` of `edulint/config/config.py`, which is part of the interface of the package (`edulint/__init__.py:4,18`).
-/

namespace Verif

/-- `get_config_one`, `edulint/config/config.py:436-445`. -/
def getConfigOne (env : Env) (fuel : Nat) (item : Item) (cmdArgs : List Str) : Except PyErr (Option (ImmutableConfig × LangTranslations)) :=
  match getConfigMany env fuel [item] cmdArgs with
  | .error e => .error e
  | .ok [] => .ok none
  | .ok (g :: _) => .ok (some (g.config, g.lang))

end Verif
