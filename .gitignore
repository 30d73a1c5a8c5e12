lean/.lake/
lean/lake-manifest.json
tools/__pycache__/
