#!/usr/bin/env python3
"""setstatus.py ID STATUS NOTE: sets one entry of status.json."""
import json, os, sys
p = os.path.join(os.path.dirname(os.path.abspath(__file__)), 'status.json')
s = json.load(open(p)); s[sys.argv[1]] = [sys.argv[2], sys.argv[3]]
json.dump(s, open(p, 'w'), indent=0, sort_keys=True)
