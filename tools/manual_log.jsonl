{"id": "n1", "definition": "parsePeripheral and serPeripheral (Verif/Model/Parse.lean, Verif/Model/Serialize.lean)", "edit": {"old": "the tag \"baseAddress\" in both", "new": "the tag \"baseAdress\" in both"}, "claim": "C57: the tags are those of the SVD format (C36, the round trip, does not notice)", "theorems_failed": [], "survived": true, "tightened": ["C57 (added: the tags are written down in a separate specification; with it the edit fails)"]}
{"id": "n2", "definition": "processDim (Verif/Model/Dim.lean)", "edit": {"old": "if d < 1 then throw", "new": "if d < 1 || d > 100 then throw"}, "claim": "C56: a correct description is accepted", "theorems_failed": ["processDim_total"], "survived": false, "tightened": ["C56_accepted (added: before it no claim said that anything is accepted)"]}
