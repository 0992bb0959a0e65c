"""Append properties: python3 tools/addprop.py FILE, FILE = JSON list of objects."""
import json,sys
have={json.loads(l)["id"] for l in open('/verif/properties.jsonl')}
with open('/verif/properties.jsonl','a') as f:
    for d in json.load(open(sys.argv[1])):
        assert d["id"] not in have, d["id"]
        assert set(d)=={"id","title","statement","quantifier","why_tests_cant","anchors"}, d
        f.write(json.dumps(d)+"\n")
