"""setstatus.py Cnn status note: records the status of a property in tools/status.json."""
import json
import os
import sys

path = os.path.join(os.path.dirname(os.path.abspath(__file__)), "status.json")
d = json.load(open(path))
d[sys.argv[1]] = {"status": sys.argv[2], "note": sys.argv[3]}
json.dump(d, open(path, "w"), indent=1)
